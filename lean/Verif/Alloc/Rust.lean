import Verif.Alloc.Ptr
/-! `RustAlloc` over an arbitrary `GlobalAlloc` per binary: single operations and whole programs. -/
namespace Verif.Alloc

/-- The alignment of the block behind a request for alignment `a`. -/
def rAl (a : Nat) : Nat := max 8 a

/-- The distance between the start of the block and the returned pointer. -/
def rOff (a : Nat) : Nat := max (rAl a) RP

/-- The size of the block behind a request. -/
def rSz (n a : Nat) : Nat := (rLayout.concat ⟨n, a⟩).size

/-- The block behind a pointer. -/
def rBlk (start n a bin : Nat) : Blk := ⟨start, rSz n a, rAl a, bin⟩

theorem rConcat (n a : Nat) : rLayout.concat ⟨n, a⟩ = ⟨rSz n a, rAl a⟩ := by
  have := concat_align rLayout ⟨n, a⟩
  unfold rSz rAl
  cases h : rLayout.concat ⟨n, a⟩ with
  | mk s al => rw [h] at this; simp only at this; rw [this]; rfl

theorem rSz_rAl (n a : Nat) : rSz n (rAl a) = rSz n a := by
  unfold rSz Layout.concat Layout.realign rLayout rAl
  have : (if 8 < max 8 a then max 8 a else 8) = (if 8 < a then a else 8) := by
    split <;> split <;> omega
  simp only [this]

theorem rAl_rAl (a : Nat) : rAl (rAl a) = rAl a := by unfold rAl; omega

theorem rAl_pow2 {a : Nat} (h : ∃ k, a = 2 ^ k) : ∃ k, rAl a = 2 ^ k := by
  unfold rAl
  rcases Nat.le_total 8 a with h1 | h1
  · rw [Nat.max_eq_right h1]; exact h
  · rw [Nat.max_eq_left h1]; exact ⟨3, rfl⟩

/-- The pair of a size and an alignment for which the computed block is large enough. -/
def rFit (n a : Nat) : Prop := a ≤ RP ∨ a ∣ n

theorem rSz_spec (n a : Nat) (h : RP + n + rAl a ≤ W) :
    rSz n a % rAl a = 0 ∧ RP + n ≤ rSz n a ∧ rSz n a < RP + n + rAl a := by
  have := concat_size rLayout ⟨n, a⟩ (by decide) h
  exact ⟨this.1, this.2.1, this.2.2.1⟩

theorem rSz_room {n a : Nat} (hp : ∃ k, a = 2 ^ k) (h : RP + n + rAl a ≤ W) (hf : rFit n a) : rOff a + n ≤ rSz n a := by
  have hs := rSz_spec n a h
  rcases Nat.lt_or_ge RP a with h1 | h1
  · have hd : a ∣ n := by
      rcases hf with h2 | h2
      · omega
      · exact h2
    have he : rAl a = a := Nat.max_eq_right (by omega)
    have ho : rOff a = a := by unfold rOff; rw [he]; omega
    rw [ho]
    rw [he] at hs
    have hm : (rSz n a - n) % a = 0 := Nat.mod_eq_zero_of_dvd (Nat.dvd_sub (Nat.dvd_of_mod_eq_zero hs.1) hd)
    have hdv := Nat.dvd_of_mod_eq_zero hm
    have := Nat.le_of_dvd (by omega) hdv
    omega
  · have ho : rOff a = RP := by unfold rOff rAl; omega
    rw [ho]; exact hs.2.1

theorem valid_iff (l : Layout) : l.valid = true ↔ (∃ k, l.align = 2 ^ k) ∧ l.size + (l.align - 1) ≤ 9223372036854775807 := by
  unfold Layout.valid
  rw [Bool.and_eq_true, isPow2_iff, decide_eq_true_iff]

/-- A request that the allocator can serve. -/
structure RGood (n a : Nat) : Prop where
  pow : ∃ k, a = 2 ^ k
  wrap : RP + n + rAl a ≤ W
  fit : rFit n a

/-- The header in front of a pointer and the block behind it. -/
structure ROwn (h : Heap RPrefix) (start n a bin : Nat) : Prop where
  good : RGood n a
  pos : 0 < start
  val : Layout.valid ⟨rSz n a, rAl a⟩ = true
  hdr : HasHdr h (rBlk start n a bin) (start + rOff a - RP) RP ⟨⟨rSz n a, rAl a⟩, bin⟩

theorem ROwn.keep {h h' : Heap RPrefix} {start n a bin : Nat} {ex : Blk → Prop} (ho : ROwn h start n a bin)
    (hs : Same h h' ex) (hx : ¬ ex (rBlk start n a bin)) : ROwn h' start n a bin :=
  ⟨ho.good, ho.pos, ho.val, ho.hdr.keep hs hx⟩

/-- Writing the header of a block that was just obtained. -/
theorem rPut {h : Heap RPrefix} (hk : HOk h.blks) {start n a bin : Nat} (hg : RGood n a)
    (hv : Layout.valid ⟨rSz n a, rAl a⟩ = true) (hb : rBlk start n a bin ∈ h.blks) :
    (start + rOff a) % W = start + rOff a ∧
    ∃ h', h.putHdr (start + rOff a - RP) RP ⟨⟨rSz n a, rAl a⟩, bin⟩ = some h' ∧ h'.blks = h.blks ∧ ROwn h' start n a bin ∧
      Same h h' (fun c => c = rBlk start n a bin) ∧
      ∀ x, start + rOff a ≤ x → h'.mem x = h.mem x := by
  have hr := rSz_room hg.pow hg.wrap hg.fit
  have he := hk.each _ hb
  simp only [rBlk] at he
  have ho : RP ≤ rOff a := by unfold rOff; omega
  obtain ⟨h', e1, e2, e3, e4, e5⟩ := putHdr_some hk hb (a := start + rOff a - RP) (n := RP)
    (show start ≤ _ by omega) (show _ ≤ start + rSz n a by omega) (⟨⟨rSz n a, rAl a⟩, bin⟩ : RPrefix)
  exact ⟨Nat.mod_eq_of_lt (by omega), h', e1, e2, ⟨hg, he.1, hv, e3⟩, e4, fun x hx => e5 x (by omega)⟩

theorem rustAlloc_some {h : Heap RPrefix} (hk : HOk h.blks) {bin n a start : Nat} (hg : RGood n a)
    (hf : freshIn h.blks start ⟨rSz n a, rAl a⟩ = true) (junk : Nat → Cell RPrefix) :
    rustAlloc h bin ⟨n, a⟩ (some start) junk = some (h, 0) ∨
    ∃ h', rustAlloc h bin ⟨n, a⟩ (some start) junk = some (h', start + rOff a) ∧ HOk h'.blks ∧
      h'.blks = rBlk start n a bin :: h.blks ∧ ROwn h' start n a bin ∧ Same h h' (fun _ => False) := by
  have hc := rConcat n a
  have hs := rSz_spec n a hg.wrap
  by_cases hv : Layout.valid ⟨rSz n a, rAl a⟩ = true
  · right
    have hk1 : HOk (h.grant start ⟨rSz n a, rAl a⟩ bin junk).blks :=
      hk.cons hf (show 0 < rSz n a by omega) bin
    have hb : rBlk start n a bin ∈ (h.grant start ⟨rSz n a, rAl a⟩ bin junk).blks := List.mem_cons_self
    obtain ⟨e0, h', e1, e2, e3, e4, _⟩ := rPut hk1 hg hv hb
    refine ⟨h', ?_, by rw [e2]; exact hk1, e2, e3, ?_⟩
    · unfold rustAlloc
      simp only [hc, hv, if_true, Option.getD_some]
      change (match (h.grant start ⟨rSz n a, rAl a⟩ bin junk).putHdr ((start + rOff a) % W - RP) RP ⟨⟨rSz n a, rAl a⟩, bin⟩ with
        | none => none
        | some h2 => some (h2, (start + rOff a) % W)) = _
      rw [e0, e1]
    · refine (grant_same hf bin junk).trans e4 fun c hcm _ hcb => ?_
      subst hcb
      exact fresh_not_mem hf (show 0 < rSz n a by omega) bin hcm
  · left
    unfold rustAlloc
    simp only [hc]
    rw [if_neg hv]

theorem rustFree_some {h : Heap RPrefix} (hk : HOk h.blks) {bin n a start : Nat} (ho : ROwn h start n a bin) :
    ∃ h', rustFree h (start + rOff a) = some h' ∧ HOk h'.blks ∧ h'.blks = h.blks.erase (rBlk start n a bin) ∧
      Same h h' (fun c => c = rBlk start n a bin) := by
  obtain ⟨h', e1, e2, e3, e4⟩ := release_some hk ho.hdr.mem
  refine ⟨h', ?_, e2, e4, e3⟩
  unfold rustFree
  rw [ho.hdr.get (by decide)]
  show h.release ⟨start + rOff a - rOff a, rSz n a, rAl a, bin⟩ = some h'
  rw [Nat.add_sub_cancel]
  exact e1

theorem rustRealloc_some {h : Heap RPrefix} (hk : HOk h.blks) {bin n m a start new : Nat} (ho : ROwn h start n a bin)
    (hg : RGood m a) (hv : RP + m + 2 * rAl a ≤ 9223372036854775808)
    (hf : freshIn (h.blks.erase (rBlk start n a bin)) new ⟨rSz m a, rAl a⟩ = true) (junk : Nat → Cell RPrefix) :
    ∃ h', rustRealloc h (start + rOff a) m (some new) junk = some (h', new + rOff a) ∧ HOk h'.blks ∧
      h'.blks = rBlk new m a bin :: h.blks.erase (rBlk start n a bin) ∧ ROwn h' new m a bin ∧
      Same h h' (fun c => c = rBlk start n a bin) ∧
      ∀ k, k < n → k < m → h'.mem (new + rOff a + k) = h.mem (start + rOff a + k) := by
  have hs := rSz_spec m a hg.wrap
  have hval : Layout.valid ⟨rSz m a, rAl a⟩ = true :=
    (valid_iff _).2 ⟨rAl_pow2 hg.pow, by simp only; omega⟩
  let h1 := h.regrant (rBlk start n a bin) new (rSz m a) junk
  have hk1 : HOk h1.blks := (hk.erase _).cons hf (show 0 < rSz m a by omega) bin
  have hb1 : rBlk new m a bin ∈ h1.blks := List.mem_cons_self
  obtain ⟨e0, h', e1, e2, e3, e4, e5⟩ := rPut hk1 hg hval hb1
  refine ⟨h', ?_, by rw [e2]; exact hk1, e2, e3, ?_, ?_⟩
  · unfold rustRealloc
    rw [ho.hdr.get (by decide)]
    simp only
    unfold rustReallocFn
    simp only
    rw [if_pos ho.val]
    have hcc : rLayout.concat ⟨m, rAl a⟩ = ⟨rSz m a, rAl a⟩ := by rw [rConcat, rSz_rAl, rAl_rAl]
    simp only [hcc, Option.getD_some]
    have hro : max (rAl a) RP = rOff a := rfl
    simp only [hro, e0, show start + rOff a - rOff a = start by omega]
    rw [if_pos ⟨ho.hdr.mem, by omega, hval⟩]
    show (match h1.putHdr (new + rOff a - RP) RP ⟨⟨rSz m a, rAl a⟩, bin⟩ with
        | none => none
        | some h2 => some (h2, new + rOff a)) = _
    rw [e1]
  · refine (regrant_same hk hf junk).trans e4 fun c hcm hne hcb => ?_
    subst hcb
    exact fresh_not_mem hf (show 0 < rSz m a by omega) bin ((hk.mem_erase _ _).2 ⟨hne, hcm⟩)
  · intro k k1 k2
    have r1 := rSz_room ho.good.pow ho.good.wrap ho.good.fit
    have r2 := rSz_room hg.pow hg.wrap hg.fit
    rw [e5 _ (by omega)]
    show (if within (new + rOff a + k) new (rSz m a) then
      (if new + rOff a + k - new < rSz n a then h.mem (start + (new + rOff a + k - new)) else _) else _) = _
    rw [if_pos ((within_iff _ _ _).2 (by omega)), if_pos (by omega)]
    congr 1; omega

/-! ### Programs -/

/-- A pointer the program got from the allocator: the layout it asked for and the binary that made the call. -/
structure RClient where
  ptr : Nat
  size : Nat
  align : Nat
  bin : Nat
deriving DecidableEq

/-- Memory and the pointers the program holds. -/
structure RSt where
  heap : Heap RPrefix
  live : List RClient

/-- What a program does: any binary allocates, reallocates, frees, or writes a byte it asked for.  The answers of the global
allocators are part of the step. -/
inductive RAct where
  | alloc (bin : Nat) (l : Layout) (ans : Option Nat) (junk : Nat → Cell RPrefix)
  | realloc (c : RClient) (n : Nat) (ans : Option Nat) (junk : Nat → Cell RPrefix)
  | free (c : RClient)
  | write (c : RClient) (off v : Nat)

/-- One step; a step that the global allocator or the contract of `IAlloc` does not allow does nothing.  `none` is undefined
behaviour. -/
def rStep (s : RSt) : RAct → Option RSt
  | .alloc bin l ans junk =>
    if ansOk s.heap.blks (rLayout.concat l) ans then
      match rustAlloc s.heap bin l ans junk with
      | none => none
      | some (h, p) => some ⟨h, if p = 0 then s.live else ⟨p, l.size, l.align, bin⟩ :: s.live⟩
    else some s
  | .realloc c n ans junk =>
    if c ∈ s.live ∧ ansOk (s.heap.blks.erase (rBlk (c.ptr - rOff c.align) c.size c.align c.bin)) (rLayout.concat ⟨n, c.align⟩) ans then
      match rustRealloc s.heap c.ptr n ans junk with
      | none => none
      | some (h, p) => some ⟨h, if p = 0 then s.live else ⟨p, n, c.align, c.bin⟩ :: s.live.erase c⟩
    else some s
  | .free c =>
    if c ∈ s.live then
      match rustFree s.heap c.ptr with
      | none => none
      | some h => some ⟨h, s.live.erase c⟩
    else some s
  | .write c off v =>
    if c ∈ s.live ∧ off < c.size then
      match s.heap.put (c.ptr + off) (.data v) with
      | none => none
      | some h => some ⟨h, s.live⟩
    else some s

/-- A whole program. -/
def rRun (s : RSt) : List RAct → Option RSt
  | [] => some s
  | a :: as =>
    match rStep s a with
    | none => none
    | some s' => rRun s' as

/-- The requests a program may make, and a global allocator that does not run out of memory. -/
def rActGood : RAct → Prop
  | .alloc _ l ans _ => RGood l.size l.align ∧ ans ≠ none
  | .realloc c n ans _ => rFit n c.align ∧ RP + n + 2 * rAl c.align ≤ 9223372036854775808 ∧ ans ≠ none
  | _ => True

/-- What holds between steps. -/
structure RInv (s : RSt) : Prop where
  ok : HOk s.heap.blks
  apart : s.live.Pairwise fun c c' => c.ptr - rOff c.align ≠ c'.ptr - rOff c'.align
  each : ∀ c ∈ s.live, ∃ p, c.ptr = p + rOff c.align ∧ ROwn s.heap p c.size c.align c.bin

theorem RInv.nodup {s : RSt} (hi : RInv s) : s.live.Nodup :=
  hi.apart.imp fun h e => h (by rw [e])

theorem RInv.other {s : RSt} (hi : RInv s) {c d : RClient} (hc : c ∈ s.live) (hd : d ∈ s.live) (hne : d ≠ c) {p q : Nat}
    (hp : c.ptr = p + rOff c.align) (hq : d.ptr = q + rOff d.align) :
    rBlk q d.size d.align d.bin ≠ rBlk p c.size c.align c.bin := by
  intro hb
  have := pairwise_mem (fun h => Ne.symm h) hi.apart d hd c hc hne
  have : q = p := congrArg Blk.base hb
  omega

theorem RInv.erase {s : RSt} (hi : RInv s) {c : RClient} {p : Nat} (hc : c ∈ s.live) (hp : c.ptr = p + rOff c.align)
    {h' : Heap RPrefix} (hok : HOk h'.blks) (hs : Same s.heap h' (fun b => b = rBlk p c.size c.align c.bin)) :
    RInv ⟨h', s.live.erase c⟩ := by
  refine ⟨hok, List.Pairwise.sublist List.erase_sublist hi.apart, fun d hd => ?_⟩
  have hd' := (hi.nodup.mem_erase_iff).1 hd
  obtain ⟨q, e1, e2⟩ := hi.each d hd'.2
  exact ⟨q, e1, e2.keep hs (hi.other hc hd'.2 hd'.1 hp e1)⟩

theorem RInv.cons {s : RSt} (hi : RInv s) {start n a bin : Nat} {rest : List Blk} {l : Layout}
    (hfr : freshIn rest start l = true)
    (hold : ∀ c ∈ s.live, ∀ p, c.ptr = p + rOff c.align → rBlk p c.size c.align c.bin ∈ rest) (hs : 0 < l.size)
    (hh : ROwn s.heap start n a bin) :
    RInv ⟨s.heap, ⟨start + rOff a, n, a, bin⟩ :: s.live⟩ := by
  refine ⟨hi.ok, List.pairwise_cons.2 ⟨fun c hcm heq => ?_, hi.apart⟩, fun d hd => ?_⟩
  · obtain ⟨q, e1, e2⟩ := hi.each c hcm
    have hm := hold c hcm q e1
    have hap := ((freshIn_iff _ _ _).1 hfr).2.2.2 _ hm
    have h3 := (hi.ok.each _ e2.hdr.mem).2.1
    simp only [rBlk] at hap h3
    simp only at heq
    omega
  · rcases List.mem_cons.1 hd with rfl | hd
    · exact ⟨start, rfl, hh⟩
    · exact hi.each d hd

theorem rStep_inv {s : RSt} (hi : RInv s) (act : RAct) (hf : rActGood act) : ∃ s', rStep s act = some s' ∧ RInv s' := by
  have hoff : ∀ a, RP ≤ rOff a := fun a => by unfold rOff; omega
  cases act with
  | alloc bin l ans junk =>
    obtain ⟨n, a⟩ := l
    obtain ⟨hg, hans⟩ := hf
    simp only [rStep]
    by_cases ha : ansOk s.heap.blks (rLayout.concat ⟨n, a⟩) ans = true
    · rw [if_pos ha]
      cases ans with
      | none => exact absurd rfl hans
      | some start =>
        have hfr : freshIn s.heap.blks start ⟨rSz n a, rAl a⟩ = true := by rw [← rConcat]; exact ha
        have hs := rSz_spec n a hg.wrap
        rcases rustAlloc_some (bin := bin) hi.ok hg hfr junk with e1 | ⟨h', e1, e2, e3, e4, e5⟩
        · rw [e1]
          exact ⟨_, rfl, by rw [if_pos rfl]; exact hi⟩
        · rw [e1]
          refine ⟨_, rfl, ?_⟩
          have := hoff a
          rw [if_neg (show ¬ start + rOff a = 0 by omega)]
          have hi' : RInv ⟨h', s.live⟩ := by
            refine ⟨e2, hi.apart, fun c hc => ?_⟩
            obtain ⟨p, f1, f2⟩ := hi.each c hc
            exact ⟨p, f1, f2.keep e5 (fun h => h)⟩
          refine hi'.cons hfr (fun c hc p hp => ?_) (show 0 < rSz n a by omega) e4
          obtain ⟨q, f1, f2⟩ := hi.each c hc
          have : q = p := by omega
          subst this; exact f2.hdr.mem
    · rw [if_neg ha]; exact ⟨s, rfl, hi⟩
  | realloc c m ans junk =>
    obtain ⟨hfit, hbig, hans⟩ := hf
    simp only [rStep]
    by_cases ha : c ∈ s.live ∧ ansOk (s.heap.blks.erase (rBlk (c.ptr - rOff c.align) c.size c.align c.bin)) (rLayout.concat ⟨m, c.align⟩) ans = true
    · rw [if_pos ha]
      obtain ⟨p, f1, f2⟩ := hi.each c ha.1
      have hpp : c.ptr - rOff c.align = p := by omega
      have hans2 := ha.2
      rw [hpp, rConcat] at hans2
      cases ans with
      | none => exact absurd rfl hans
      | some new =>
        have hg : RGood m c.align := ⟨f2.good.pow, by omega, hfit⟩
        have hs := rSz_spec m c.align hg.wrap
        obtain ⟨h', e1, e2, e3, e4, e5, _⟩ := rustRealloc_some hi.ok f2 hg hbig hans2 junk
        rw [f1, e1]
        refine ⟨_, rfl, ?_⟩
        have := hoff c.align
        rw [if_neg (by omega)]
        have hi' := hi.erase ha.1 f1 e2 e5
        refine hi'.cons (l := ⟨rSz m c.align, rAl c.align⟩) hans2 (fun d hd q hq => ?_) (show 0 < rSz m c.align by omega) e4
        have hd' := (hi.nodup.mem_erase_iff).1 hd
        obtain ⟨q', g1, g2⟩ := hi.each d hd'.2
        have : q' = q := by omega
        subst this
        exact (hi.ok.mem_erase _ _).2 ⟨hi.other ha.1 hd'.2 hd'.1 f1 g1, g2.hdr.mem⟩
    · rw [if_neg ha]; exact ⟨s, rfl, hi⟩
  | free c =>
    simp only [rStep]
    by_cases ha : c ∈ s.live
    · rw [if_pos ha]
      obtain ⟨p, f1, f2⟩ := hi.each c ha
      obtain ⟨h', e1, e2, e3, e4⟩ := rustFree_some hi.ok f2
      rw [f1, e1]
      exact ⟨_, rfl, hi.erase ha f1 e2 e4⟩
    · rw [if_neg ha]; exact ⟨s, rfl, hi⟩
  | write c off v =>
    simp only [rStep]
    by_cases ha : c ∈ s.live ∧ off < c.size
    · rw [if_pos ha]
      obtain ⟨p, f1, f2⟩ := hi.each c ha.1
      have hr := rSz_room f2.good.pow f2.good.wrap f2.good.fit
      obtain ⟨h', e1, e2, e3, e4, e5⟩ := put_some hi.ok f2.hdr.mem (a := c.ptr + off) (v := .data v)
        (show p ≤ c.ptr + off by omega) (show c.ptr + off < p + rSz c.size c.align by omega)
      rw [e1]
      refine ⟨_, rfl, by rw [e2]; exact hi.ok, hi.apart, fun d hd => ?_⟩
      obtain ⟨q, g1, g2⟩ := hi.each d hd
      by_cases hdc : d = c
      · subst hdc
        have : q = p := by omega
        subst this
        have := hoff d.align
        exact ⟨q, g1, g2.good, g2.pos, g2.val, by rw [e2]; exact g2.hdr.mem, g2.hdr.lo, g2.hdr.hi, fun k hk => by
          rw [e5 _ (by omega)]; exact g2.hdr.cells k hk⟩
      · exact ⟨q, g1, g2.keep e4 (hi.other ha.1 hd hdc f1 g1)⟩
    · rw [if_neg ha]; exact ⟨s, rfl, hi⟩

theorem rRun_inv : ∀ (acts : List RAct) (s : RSt), RInv s → (∀ a ∈ acts, rActGood a) →
    ∃ s', rRun s acts = some s' ∧ RInv s'
  | [], s, hi, _ => ⟨s, rfl, hi⟩
  | a :: as, s, hi, hf => by
    obtain ⟨s1, e1, i1⟩ := rStep_inv hi a (hf a List.mem_cons_self)
    obtain ⟨s2, e2, i2⟩ := rRun_inv as s1 i1 fun b hb => hf b (List.mem_cons_of_mem _ hb)
    exact ⟨s2, by unfold rRun; rw [e1]; exact e2, i2⟩

end Verif.Alloc
