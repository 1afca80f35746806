import Verif.Alloc.Arith
/-! What the memory operations of `Verif.Alloc.Model` preserve. -/
namespace Verif.Alloc
variable {P : Type}

/-- Two blocks share no address. -/
def Apart (b c : Blk) : Prop := b.base + b.size ≤ c.base ∨ c.base + c.size ≤ b.base

/-- The live blocks are apart, non-empty, aligned and inside the address space. -/
structure HOk (blks : List Blk) : Prop where
  apart : blks.Pairwise Apart
  each : ∀ b ∈ blks, 0 < b.base ∧ 0 < b.size ∧ b.base + b.size < W ∧ b.base % b.align = 0

theorem within_iff (x a n : Nat) : within x a n = true ↔ a ≤ x ∧ x < a + n := by simp [within]

theorem room_iff (h : Heap P) (a n : Nat) :
    h.room a n = true ↔ ∃ b ∈ h.blks, b.base ≤ a ∧ a + n ≤ b.base + b.size := by simp [Heap.room]

theorem freshIn_iff (blks : List Blk) (a : Nat) (l : Layout) :
    freshIn blks a l = true ↔ 0 < a ∧ a % l.align = 0 ∧ a + l.size < W ∧
      ∀ b ∈ blks, a + l.size ≤ b.base ∨ b.base + b.size ≤ a := by
  simp [freshIn, and_assoc]

theorem HOk.unique {blks : List Blk} (h : HOk blks) {b c : Blk} (hb : b ∈ blks) (hc : c ∈ blks) {x : Nat}
    (h1 : b.base ≤ x ∧ x < b.base + b.size) (h2 : c.base ≤ x ∧ x < c.base + c.size) : b = c := by
  by_cases e : b = c
  · exact e
  · have hs : ∀ {b c : Blk}, Apart b c → Apart c b := fun h => h.symm
    have hp : ∀ b ∈ blks, ∀ c ∈ blks, b ≠ c → Apart b c := by
      have ha := h.apart
      clear h hb hc h1 h2
      induction blks with
      | nil => intro b hb; simp at hb
      | cons d l ih =>
        rw [List.pairwise_cons] at ha
        intro b hb c hc hne
        rcases List.mem_cons.1 hb with rfl | hb' <;> rcases List.mem_cons.1 hc with rfl | hc'
        · exact absurd rfl hne
        · exact ha.1 c hc'
        · exact hs (ha.1 b hb')
        · exact ih ha.2 b hb' c hc' hne
    rcases hp b hb c hc e with h | h <;> omega

theorem HOk.nodup {blks : List Blk} (h : HOk blks) : blks.Nodup := by
  refine List.Pairwise.imp_of_mem ?_ h.apart
  intro b c hb hc ha e
  subst e
  have := (h.each b hb).2.1
  rcases ha with h | h <;> omega

theorem HOk.mem_erase {blks : List Blk} (h : HOk blks) (b c : Blk) : c ∈ blks.erase b ↔ c ≠ b ∧ c ∈ blks :=
  h.nodup.mem_erase_iff

theorem HOk.erase {blks : List Blk} (h : HOk blks) (b : Blk) : HOk (blks.erase b) :=
  ⟨List.Pairwise.sublist List.erase_sublist h.apart, fun c hc => h.each c (List.mem_of_mem_erase hc)⟩

theorem HOk.cons {blks : List Blk} (h : HOk blks) {a : Nat} {l : Layout} (hf : freshIn blks a l = true) (hs : 0 < l.size)
    (o : Nat) : HOk (⟨a, l.size, l.align, o⟩ :: blks) := by
  rw [freshIn_iff] at hf
  obtain ⟨h1, h2, h3, h4⟩ := hf
  refine ⟨List.pairwise_cons.2 ⟨fun c hc => h4 c hc, h.apart⟩, fun b hb => ?_⟩
  rcases List.mem_cons.1 hb with rfl | hb
  · exact ⟨h1, hs, h3, h2⟩
  · exact h.each b hb

/-- Every block of `h` but `ex` is a block of `h'` with the same contents. -/
def Same (h h' : Heap P) (ex : Blk → Prop) : Prop :=
  ∀ c ∈ h.blks, ¬ ex c → c ∈ h'.blks ∧ ∀ x, c.base ≤ x → x < c.base + c.size → h'.mem x = h.mem x

theorem Same.trans {h h' h'' : Heap P} {ex ex' : Blk → Prop} (h1 : Same h h' ex) (h2 : Same h' h'' ex')
    (hx : ∀ c ∈ h.blks, ¬ ex c → ¬ ex' c) : Same h h'' ex := by
  intro c hc hn
  have ⟨a1, a2⟩ := h1 c hc hn
  have ⟨b1, b2⟩ := h2 c a1 (hx c hc hn)
  exact ⟨b1, fun x p q => by rw [b2 x p q, a2 x p q]⟩

theorem Same.refl (h : Heap P) (ex : Blk → Prop) : Same h h ex := fun _ hc _ => ⟨hc, fun _ _ _ => rfl⟩

theorem grant_same {h : Heap P} {a : Nat} {l : Layout} (hf : freshIn h.blks a l = true) (o : Nat) (junk : Nat → Cell P) :
    Same h (h.grant a l o junk) (fun _ => False) := by
  rw [freshIn_iff] at hf
  intro c hc _
  refine ⟨List.mem_cons_of_mem _ hc, fun x h1 h2 => ?_⟩
  have := hf.2.2.2 c hc
  show (if within x a l.size then junk x else h.mem x) = h.mem x
  rw [if_neg]
  rw [within_iff]; omega

/-- A block that may be handed out is not one of the live ones. -/
theorem fresh_not_mem {blks : List Blk} {a : Nat} {l : Layout} (hf : freshIn blks a l = true)
    (hs : 0 < l.size) (o : Nat) : (⟨a, l.size, l.align, o⟩ : Blk) ∉ blks := by
  intro hm
  rw [freshIn_iff] at hf
  have := hf.2.2.2 _ hm
  simp only at this
  omega

theorem regrant_same {h : Heap P} (hk : HOk h.blks) {b : Blk} {a n : Nat} (hf : freshIn (h.blks.erase b) a ⟨n, b.align⟩ = true)
    (junk : Nat → Cell P) : Same h (h.regrant b a n junk) (fun c => c = b) := by
  rw [freshIn_iff] at hf
  intro c hc hn
  have hm : c ∈ h.blks.erase b := (hk.mem_erase b c).2 ⟨hn, hc⟩
  refine ⟨List.mem_cons_of_mem _ hm, fun x h1 h2 => ?_⟩
  have := hf.2.2.2 c hm
  show (if within x a n then _ else h.mem x) = h.mem x
  rw [if_neg]
  rw [within_iff]; simp only at this; omega

theorem release_some {h : Heap P} (hk : HOk h.blks) {b : Blk} (hb : b ∈ h.blks) :
    ∃ h', h.release b = some h' ∧ HOk h'.blks ∧ Same h h' (fun c => c = b) ∧ h'.blks = h.blks.erase b := by
  refine ⟨_, if_pos hb, hk.erase b, ?_, rfl⟩
  intro c hc hn
  exact ⟨(hk.mem_erase b c).2 ⟨hn, hc⟩, fun _ _ _ => rfl⟩

/-- The header `p` of `n` bytes is at `a`, in the block `b`. -/
structure HasHdr (h : Heap P) (b : Blk) (a n : Nat) (p : P) : Prop where
  mem : b ∈ h.blks
  lo : b.base ≤ a
  hi : a + n ≤ b.base + b.size
  cells : ∀ k, k < n → h.mem (a + k) = .hdr p k

theorem HasHdr.get [DecidableEq P] {h : Heap P} {b : Blk} {a n : Nat} {p : P} (hh : HasHdr h b a n p) (hn : 0 < n) :
    h.getHdr a n = some p := by
  have h0 := hh.cells 0 hn
  simp only [Nat.add_zero] at h0
  unfold Heap.getHdr
  rw [h0]
  simp only
  rw [if_pos ⟨(room_iff h a n).2 ⟨b, hh.mem, hh.lo, hh.hi⟩, hh.cells⟩]

theorem HasHdr.keep {h h' : Heap P} {b : Blk} {a n : Nat} {p : P} {ex : Blk → Prop} (hh : HasHdr h b a n p)
    (hs : Same h h' ex) (hx : ¬ ex b) : HasHdr h' b a n p := by
  have ⟨h1, h2⟩ := hs b hh.mem hx
  have := hh.lo
  have := hh.hi
  exact ⟨h1, hh.lo, hh.hi, fun k hk => by rw [h2 _ (by omega) (by omega)]; exact hh.cells k hk⟩

theorem putHdr_some {h : Heap P} (hk : HOk h.blks) {b : Blk} (hb : b ∈ h.blks) {a n : Nat} (h1 : b.base ≤ a)
    (h2 : a + n ≤ b.base + b.size) (p : P) :
    ∃ h', h.putHdr a n p = some h' ∧ h'.blks = h.blks ∧ HasHdr h' b a n p ∧ Same h h' (fun c => c = b) ∧
      ∀ x, ¬ (a ≤ x ∧ x < a + n) → h'.mem x = h.mem x := by
  have hr : h.room a n = true := (room_iff h a n).2 ⟨b, hb, h1, h2⟩
  refine ⟨_, if_pos hr, rfl, ⟨hb, h1, h2, fun k hk => ?_⟩, ?_, ?_⟩
  · show (if within (a + k) a n then Cell.hdr p (a + k - a) else _) = _
    rw [if_pos ((within_iff _ _ _).2 (by omega))]
    congr 1; omega
  · intro c hc hn
    refine ⟨hc, fun x q1 q2 => ?_⟩
    show (if within x a n then _ else h.mem x) = h.mem x
    rw [if_neg]
    rw [within_iff]
    intro hw
    exact hn (hk.unique hc hb ⟨q1, q2⟩ (by omega))
  · intro x hx
    show (if within x a n then _ else h.mem x) = h.mem x
    rw [if_neg]
    rw [within_iff]; exact hx

theorem put_some {h : Heap P} (hk : HOk h.blks) {b : Blk} (hb : b ∈ h.blks) {a : Nat} (h1 : b.base ≤ a)
    (h2 : a < b.base + b.size) (v : Cell P) :
    ∃ h', h.put a v = some h' ∧ h'.blks = h.blks ∧ h'.mem a = v ∧ Same h h' (fun c => c = b) ∧
      ∀ x, x ≠ a → h'.mem x = h.mem x := by
  have hr : h.room a 1 = true := (room_iff h a 1).2 ⟨b, hb, h1, by omega⟩
  refine ⟨_, if_pos hr, rfl, by simp, ?_, ?_⟩
  · intro c hc hn
    refine ⟨hc, fun x q1 q2 => ?_⟩
    show (if x = a then _ else h.mem x) = h.mem x
    rw [if_neg]
    rintro rfl
    exact hn (hk.unique hc hb ⟨q1, q2⟩ ⟨h1, h2⟩)
  · intro x hx
    show (if x = a then _ else h.mem x) = h.mem x
    rw [if_neg hx]

theorem copy_some {h : Heap P} (hk : HOk h.blks) {b b' : Blk} (hb : b ∈ h.blks) (hb' : b' ∈ h.blks) {src dst n : Nat}
    (h1 : b.base ≤ src) (h2 : src + n ≤ b.base + b.size) (h3 : b'.base ≤ dst) (h4 : dst + n ≤ b'.base + b'.size)
    (h5 : src + n ≤ dst ∨ dst + n ≤ src) :
    ∃ h', h.copy src dst n = some h' ∧ h'.blks = h.blks ∧ Same h h' (fun c => c = b') ∧
      (∀ k, k < n → h'.mem (dst + k) = h.mem (src + k)) := by
  refine ⟨_, if_pos ⟨(room_iff h src n).2 ⟨b, hb, h1, h2⟩, (room_iff h dst n).2 ⟨b', hb', h3, h4⟩, h5⟩,
    rfl, ?_, ?_⟩
  · intro c hc hn
    refine ⟨hc, fun x q1 q2 => ?_⟩
    show (if within x dst n then _ else h.mem x) = h.mem x
    rw [if_neg]
    rw [within_iff]
    intro hw
    exact hn (hk.unique hc hb' ⟨q1, q2⟩ (by omega))
  · intro k hk
    show (if within (dst + k) dst n then h.mem (src + (dst + k - dst)) else _) = _
    rw [if_pos ((within_iff _ _ _).2 (by omega))]
    congr 1; omega

theorem blockAt_some {h : Heap P} (hk : HOk h.blks) {b : Blk} (hb : b ∈ h.blks) : h.blockAt b.base = some b := by
  unfold Heap.blockAt
  cases e : h.blks.find? (fun c => c.base == b.base) with
  | none =>
    rw [List.find?_eq_none] at e
    have := e b hb
    simp at this
  | some c =>
    have hc := List.mem_of_find?_eq_some e
    have he := List.find?_some e
    simp only [beq_iff_eq] at he
    have p1 := (hk.each b hb).2.1
    have p2 := (hk.each c hc).2.1
    exact congrArg some (hk.unique hc hb (x := b.base) (by omega) (by omega))

theorem libcFree_some {h : Heap P} (hk : HOk h.blks) {b : Blk} (hb : b ∈ h.blks) :
    ∃ h', libcFree h b.base = some h' ∧ HOk h'.blks ∧ Same h h' (fun c => c = b) ∧ h'.blks = h.blks.erase b := by
  obtain ⟨h', e, r⟩ := release_some hk hb
  exact ⟨h', by unfold libcFree; rw [blockAt_some hk hb]; exact e, r⟩

end Verif.Alloc
