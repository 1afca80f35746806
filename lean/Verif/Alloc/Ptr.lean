import Verif.Alloc.Heap
/-! `AllocPtr` over an arbitrary allocator that keeps the `IAlloc` contract: single operations and whole programs. -/
namespace Verif.Alloc

theorem pairwise_mem {α : Type} {R : α → α → Prop} (hs : ∀ {b c}, R b c → R c b) {l : List α} (h : l.Pairwise R) :
    ∀ b ∈ l, ∀ c ∈ l, b ≠ c → R b c := by
  induction l with
  | nil => intro b hb; simp at hb
  | cons d l ih =>
    rw [List.pairwise_cons] at h
    intro b hb c hc hne
    rcases List.mem_cons.1 hb with rfl | hb' <;> rcases List.mem_cons.1 hc with rfl | hc'
    · exact absurd rfl hne
    · exact h.1 c hc'
    · exact hs (h.1 b hb')
    · exact ih h.2 b hb' c hc' hne

/-- The types are Rust types, and `T` is not more aligned than the prefix. -/
structure Env.Ok (e : Env) : Prop where
  pa : ∃ k, e.pre.align = 2 ^ k
  ea : ∃ k, e.elt.align = 2 ^ k
  le : e.elt.align ≤ e.pre.align
  ps : 0 < e.pre.size
  pd : e.pre.align ∣ e.pre.size

/-- `cap` elements and the prefix fit the address space. -/
def Env.Fits (e : Env) (cap : Nat) : Prop := e.pre.size + e.elt.size * cap + e.pre.align ≤ W

theorem Env.layout_size {e : Env} (ok : e.Ok) {cap : Nat} (hf : e.Fits cap) :
    (e.pre.concat (e.elt.array cap)).size = (e.layout cap).size ∧ e.pre.size + e.elt.size * cap ≤ (e.layout cap).size ∧
      (e.layout cap).size < e.pre.size + e.elt.size * cap + e.pre.align ∧ 0 < (e.layout cap).size := by
  have hp := pow2_pos ok.pa
  have hps := ok.ps
  have hm : (e.elt.array cap).size = e.elt.size * cap := Nat.mod_eq_of_lt (by unfold Env.Fits at hf; omega)
  have ha : (e.elt.array cap).align = e.elt.align := rfl
  have hmax : max e.pre.align (e.elt.array cap).align = e.pre.align := by rw [ha]; exact Nat.max_eq_left ok.le
  have := concat_size e.pre (e.elt.array cap) hp (by rw [hmax, hm]; exact hf)
  rw [hm, hmax] at this
  refine ⟨rfl, this.2.1, this.2.2.1, ?_⟩
  show 0 < (e.pre.concat (e.elt.array cap)).size
  omega

theorem Env.dataPtr_eq {e : Env} (ok : e.Ok) {a : Nat} (ha : a % e.pre.align = 0) (hw : a + e.pre.size < W) :
    e.dataPtr a = a + e.pre.size := by
  have h1 : (a + e.pre.size) % W = a + e.pre.size := Nat.mod_eq_of_lt hw
  have h2 : (a + e.pre.size) % e.elt.align = 0 :=
    mod_of_dvd_mod (pow2_dvd ok.ea ok.pa ok.le) (add_mod_zero ha (Nat.mod_eq_zero_of_dvd ok.pd))
  show ((a + e.pre.size) % W + alignOffset ((a + e.pre.size) % W) e.elt.align) % W = _
  rw [h1, alignOffset_zero _ _ h2]
  exact h1

theorem init_some {e : Env} (ok : e.Ok) {h : Heap APrefix} (hk : HOk h.blks) {b : Blk} (hb : b ∈ h.blks)
    (hal : b.align = e.pre.align) (hsz : e.pre.size ≤ b.size) (cap : Nat) :
    ∃ h', e.init h b.base cap = some (h', b.base + e.pre.size) ∧ h'.blks = h.blks ∧
      HasHdr h' b b.base e.pre.size ⟨1, 1, cap, b.base⟩ ∧ Same h h' (fun c => c = b) ∧
      ∀ x, ¬ (b.base ≤ x ∧ x < b.base + e.pre.size) → h'.mem x = h.mem x := by
  have hb' := hk.each b hb
  have hd := e.dataPtr_eq ok (a := b.base) (by rw [← hal]; exact hb'.2.2.2) (by omega)
  obtain ⟨h', e1, e2, e3, e4, e5⟩ := putHdr_some hk hb (a := b.base) (n := e.pre.size) (Nat.le_refl _) (by omega)
    (⟨1, 1, cap, b.base⟩ : APrefix)
  refine ⟨h', ?_, e2, e3, e4, e5⟩
  unfold Env.init
  simp only [hd, Nat.add_sub_cancel, e1]

/-- The block behind `cap` elements whose prefix is at `a`. -/
def Env.blk (e : Env) (a cap : Nat) : Blk := ⟨a, (e.layout cap).size, e.pre.align, 0⟩

theorem allocArray_some {e : Env} (ok : e.Ok) {h : Heap APrefix} (hk : HOk h.blks) {a cap : Nat} (hc : e.Fits cap)
    (hf : freshIn h.blks a (e.layout cap) = true) (junk : Nat → Cell APrefix) :
    ∃ h', e.allocArray h cap (some a) junk = some (h', a + e.pre.size) ∧ HOk h'.blks ∧
      h'.blks = e.blk a cap :: h.blks ∧ HasHdr h' (e.blk a cap) a e.pre.size ⟨1, 1, cap, a⟩ ∧
      Same h h' (fun _ => False) := by
  have hl := e.layout_size ok hc
  have hk1 : HOk (h.grant a (e.layout cap) 0 junk).blks := hk.cons hf hl.2.2.2 0
  have hb : e.blk a cap ∈ (h.grant a (e.layout cap) 0 junk).blks := List.mem_cons_self
  obtain ⟨h', e1, e2, e3, e4, _⟩ := init_some ok hk1 hb rfl (show e.pre.size ≤ (e.layout cap).size by omega) cap
  refine ⟨h', e1, by rw [e2]; exact hk1, e2, e3, ?_⟩
  refine (grant_same hf 0 junk).trans e4 fun c hcm _ hcb => ?_
  subst hcb
  exact fresh_not_mem hf hl.2.2.2 0 hcm

theorem realloc_some {e : Env} (ok : e.Ok) {h : Heap APrefix} (hk : HOk h.blks) {p a prev cap : Nat} (hp : e.Fits prev)
    (hc : e.Fits cap) (hb : e.blk p prev ∈ h.blks)
    (hf : freshIn (h.blks.erase (e.blk p prev)) a (e.layout cap) = true) (junk : Nat → Cell APrefix) :
    ∃ h', e.realloc h (p + e.pre.size) prev cap (some a) junk = some (h', a + e.pre.size) ∧ HOk h'.blks ∧
      h'.blks = e.blk a cap :: h.blks.erase (e.blk p prev) ∧ HasHdr h' (e.blk a cap) a e.pre.size ⟨1, 1, cap, a⟩ ∧
      Same h h' (fun c => c = e.blk p prev) ∧
      ∀ k, k < e.elt.size * prev → k < e.elt.size * cap →
        h'.mem (a + e.pre.size + k) = h.mem (p + e.pre.size + k) := by
  have hl := e.layout_size ok hc
  have hlp := e.layout_size ok hp
  let h1 := h.regrant (e.blk p prev) a (e.layout cap).size junk
  have hk1 : HOk h1.blks := (hk.erase _).cons hf hl.2.2.2 0
  have hb1 : e.blk a cap ∈ h1.blks := List.mem_cons_self
  obtain ⟨h', e1, e2, e3, e4, e5⟩ := init_some ok hk1 hb1 rfl (show e.pre.size ≤ (e.layout cap).size by omega) cap
  refine ⟨h', ?_, by rw [e2]; exact hk1, e2, e3, ?_, ?_⟩
  · unfold Env.realloc
    simp only [Nat.add_sub_cancel]
    rw [if_pos (show (⟨p, (e.layout prev).size, e.pre.align, 0⟩ : Blk) ∈ h.blks from hb)]
    exact e1
  · refine (regrant_same hk hf junk).trans e4 fun c hcm hne hcb => ?_
    subst hcb
    exact fresh_not_mem hf hl.2.2.2 0 ((hk.mem_erase _ _).2 ⟨hne, hcm⟩)
  · intro k k1 k2
    rw [e5 _ (show ¬ (a ≤ a + e.pre.size + k ∧ a + e.pre.size + k < a + e.pre.size) by omega)]
    show (if within (a + e.pre.size + k) a (e.layout cap).size then
      (if a + e.pre.size + k - a < (e.layout prev).size then h.mem (p + (a + e.pre.size + k - a)) else _) else _) = _
    rw [if_pos ((within_iff _ _ _).2 (by omega)), if_pos (by omega)]
    congr 1; omega

theorem free_some {e : Env} (ok : e.Ok) {h : Heap APrefix} (hk : HOk h.blks) {p cap s w c : Nat}
    (hh : HasHdr h (e.blk p cap) p e.pre.size ⟨s, w, c, p⟩) :
    ∃ h', e.free h (p + e.pre.size) = some h' ∧ HOk h'.blks ∧ h'.blks = h.blks.erase (e.blk p cap) ∧
      Same h h' (fun c => c = e.blk p cap) := by
  obtain ⟨h', e1, e2, e3, e4⟩ := libcFree_some hk hh.mem
  refine ⟨h', ?_, e2, e4, e3⟩
  unfold Env.free Env.prefix
  simp only [Nat.add_sub_cancel]
  rw [hh.get ok.ps]
  exact e1

/-! ### Programs -/

/-- A live `AllocPtr` to `cap` elements. -/
structure AClient where
  ptr : Nat
  cap : Nat
deriving DecidableEq

/-- Memory and the pointers the program holds. -/
structure ASt where
  heap : Heap APrefix
  live : List AClient

/-- What a program does: allocate, reallocate, free, write a byte of the elements, and update the counters of the prefix
(`AllocPtr::prefix_mut`, as `Box`, `Vec` and `Arc` do).  The answers of the allocator are part of the step. -/
inductive AAct where
  | alloc (cap : Nat) (ans : Option Nat) (junk : Nat → Cell APrefix)
  | realloc (c : AClient) (cap : Nat) (ans : Option Nat) (junk : Nat → Cell APrefix)
  | free (c : AClient)
  | write (c : AClient) (off v : Nat)
  | mark (c : AClient) (strong weak capacity : Nat)

/-- The answer of the allocator is one its contract allows: null, or a block away from the others. -/
def ansOk (blks : List Blk) (l : Layout) (ans : Option Nat) : Bool :=
  match ans with
  | none => true
  | some a => freshIn blks a l

/-- One step; a step that the allocator or the contract of `AllocPtr` does not allow does nothing.  `none` is undefined
behaviour. -/
def Env.step (e : Env) (s : ASt) : AAct → Option ASt
  | .alloc cap ans junk =>
    if ansOk s.heap.blks (e.layout cap) ans then
      match e.allocArray s.heap cap ans junk with
      | none => none
      | some (h, p) => some ⟨h, if p = 0 then s.live else ⟨p, cap⟩ :: s.live⟩
    else some s
  | .realloc c cap ans junk =>
    if c ∈ s.live ∧ ansOk (s.heap.blks.erase (e.blk (c.ptr - e.pre.size) c.cap)) (e.layout cap) ans then
      match e.realloc s.heap c.ptr c.cap cap ans junk with
      | none => none
      | some (h, p) => some ⟨h, if p = 0 then s.live else ⟨p, cap⟩ :: s.live.erase c⟩
    else some s
  | .free c =>
    if c ∈ s.live then
      match e.free s.heap c.ptr with
      | none => none
      | some h => some ⟨h, s.live.erase c⟩
    else some s
  | .write c off v =>
    if c ∈ s.live ∧ off < e.elt.size * c.cap then
      match s.heap.put (c.ptr + off) (.data v) with
      | none => none
      | some h => some ⟨h, s.live⟩
    else some s
  | .mark c strong weak capacity =>
    if c ∈ s.live then
      match e.prefix s.heap c.ptr with
      | none => none
      | some pre =>
        match s.heap.putHdr (c.ptr - e.pre.size) e.pre.size ⟨strong, weak, capacity, pre.origin⟩ with
        | none => none
        | some h => some ⟨h, s.live⟩
    else some s

/-- A whole program. -/
def Env.run (e : Env) (s : ASt) : List AAct → Option ASt
  | [] => some s
  | a :: as =>
    match e.step s a with
    | none => none
    | some s' => e.run s' as

/-- The program asks only for arrays that fit the address space. -/
def Env.actFits (e : Env) : AAct → Prop
  | .alloc cap _ _ => e.Fits cap
  | .realloc _ cap _ _ => e.Fits cap
  | _ => True

/-- What holds between steps. -/
structure AInv (e : Env) (s : ASt) : Prop where
  ok : HOk s.heap.blks
  apart : s.live.Pairwise fun c c' => c.ptr ≠ c'.ptr
  each : ∀ c ∈ s.live, ∃ p st w cp, c.ptr = p + e.pre.size ∧ 0 < p ∧ e.Fits c.cap ∧
    HasHdr s.heap (e.blk p c.cap) p e.pre.size ⟨st, w, cp, p⟩

theorem AInv.nodup {e : Env} {s : ASt} (hi : AInv e s) : s.live.Nodup :=
  hi.apart.imp fun h e => h (by rw [e])

theorem AInv.erase {e : Env} {s : ASt} (hi : AInv e s) {c : AClient} {p : Nat} (hc : c ∈ s.live)
    (hp : c.ptr = p + e.pre.size) {h' : Heap APrefix} (hok : HOk h'.blks) (hs : Same s.heap h' (fun b => b = e.blk p c.cap)) :
    AInv e ⟨h', s.live.erase c⟩ := by
  refine ⟨hok, List.Pairwise.sublist List.erase_sublist hi.apart, fun d hd => ?_⟩
  have hd' := (hi.nodup.mem_erase_iff).1 hd
  obtain ⟨q, st, w, cp, e1, e2, e3, e4⟩ := hi.each d hd'.2
  refine ⟨q, st, w, cp, e1, e2, e3, e4.keep hs fun hb => ?_⟩
  have := pairwise_mem (fun h => Ne.symm h) hi.apart d hd'.2 c hc hd'.1
  have : q = p := congrArg Blk.base hb
  omega

theorem AInv.cons {e : Env} {s : ASt} (hi : AInv e s) {a cap : Nat} (hl : 0 < (e.layout cap).size) (hc : e.Fits cap)
    {rest : List Blk} (hfr : freshIn rest a (e.layout cap) = true)
    (hrest : ∀ b ∈ s.heap.blks, b ∈ rest ∨ b = e.blk a cap)
    (hold : ∀ c ∈ s.live, ∀ p, c.ptr = p + e.pre.size → e.blk p c.cap ∈ rest)
    (hh : HasHdr s.heap (e.blk a cap) a e.pre.size ⟨1, 1, cap, a⟩) :
    AInv e ⟨s.heap, ⟨a + e.pre.size, cap⟩ :: s.live⟩ := by
  have ha : 0 < a := ((freshIn_iff _ _ _).1 hfr).1
  refine ⟨hi.ok, List.pairwise_cons.2 ⟨fun c hcm heq => ?_, hi.apart⟩, fun d hd => ?_⟩
  · have hm := hold c hcm a heq.symm
    have hap := ((freshIn_iff _ _ _).1 hfr).2.2.2 _ hm
    obtain ⟨q, st, w, cp, e1, e2, e3, e4⟩ := hi.each c hcm
    have : q = a := by simp only at heq; omega
    subst this
    have := (hi.ok.each _ e4.mem).2.1
    simp only [Env.blk] at hap this
    omega
  · rcases List.mem_cons.1 hd with rfl | hd
    · exact ⟨a, 1, 1, cap, rfl, ha, hc, hh⟩
    · exact hi.each d hd

/-- No step of a program that keeps to sizes that fit is undefined, and the invariant is kept. -/
theorem step_inv {e : Env} (ok : e.Ok) {s : ASt} (hi : AInv e s) (act : AAct) (hf : e.actFits act) :
    ∃ s', e.step s act = some s' ∧ AInv e s' := by
  have hpos := ok.ps
  cases act with
  | alloc cap ans junk =>
    simp only [Env.step]
    by_cases ha : ansOk s.heap.blks (e.layout cap) ans = true
    · rw [if_pos ha]
      cases ans with
      | none => exact ⟨_, rfl, hi⟩
      | some a =>
        have hfr : freshIn s.heap.blks a (e.layout cap) = true := ha
        obtain ⟨h', e1, e2, e3, e4, e5⟩ := allocArray_some ok hi.ok hf hfr junk
        rw [e1]
        refine ⟨_, rfl, ?_⟩
        rw [if_neg (by omega)]
        have hi' : AInv e ⟨h', s.live⟩ := by
          refine ⟨e2, hi.apart, fun c hc => ?_⟩
          obtain ⟨p, st, w, cp, f1, f2, f3, f4⟩ := hi.each c hc
          exact ⟨p, st, w, cp, f1, f2, f3, f4.keep e5 (fun h => h)⟩
        refine hi'.cons (e.layout_size ok hf).2.2.2 hf hfr (fun b hb => ?_) (fun c hc p hp => ?_) e4
        · rw [e3] at hb
          rcases List.mem_cons.1 hb with h | h
          · exact .inr h
          · exact .inl h
        · obtain ⟨q, st, w, cp, f1, f2, f3, f4⟩ := hi.each c hc
          have : q = p := by omega
          subst this; exact f4.mem
    · rw [if_neg ha]; exact ⟨s, rfl, hi⟩
  | realloc c cap ans junk =>
    simp only [Env.step]
    by_cases ha : c ∈ s.live ∧ ansOk (s.heap.blks.erase (e.blk (c.ptr - e.pre.size) c.cap)) (e.layout cap) ans = true
    · rw [if_pos ha]
      obtain ⟨p, st, w, cp, f1, f2, f3, f4⟩ := hi.each c ha.1
      have hpp : c.ptr - e.pre.size = p := by omega
      have hans := ha.2
      rw [hpp] at hans
      cases ans with
      | none =>
        have : e.realloc s.heap c.ptr c.cap cap none junk = some (s.heap, 0) := by
          unfold Env.realloc
          rw [if_pos (show (⟨c.ptr - e.pre.size, (e.layout c.cap).size, e.pre.align, 0⟩ : Blk) ∈ s.heap.blks by
            rw [hpp]; exact f4.mem)]
        rw [this]
        exact ⟨_, rfl, by rw [if_pos rfl]; exact hi⟩
      | some a =>
        have hfr : freshIn (s.heap.blks.erase (e.blk p c.cap)) a (e.layout cap) = true := hans
        obtain ⟨h', e1, e2, e3, e4, e5, _⟩ := realloc_some ok hi.ok f3 hf f4.mem hfr junk
        rw [f1, e1]
        refine ⟨_, rfl, ?_⟩
        rw [if_neg (by omega)]
        have hi' := hi.erase ha.1 f1 e2 e5
        refine hi'.cons (e.layout_size ok hf).2.2.2 hf hfr (fun b hb => ?_) (fun d hd q hq => ?_) e4
        · have hb : b ∈ h'.blks := hb
          rw [e3] at hb
          rcases List.mem_cons.1 hb with h | h
          · exact .inr h
          · exact .inl h
        · have hd' := (hi.nodup.mem_erase_iff).1 hd
          obtain ⟨q', st, w, cp, g1, g2, g3, g4⟩ := hi.each d hd'.2
          have : q' = q := by omega
          subst this
          refine (hi.ok.mem_erase _ _).2 ⟨fun hb => ?_, g4.mem⟩
          have := pairwise_mem (fun h => Ne.symm h) hi.apart d hd'.2 c ha.1 hd'.1
          have : q' = p := congrArg Blk.base hb
          omega
    · rw [if_neg ha]; exact ⟨s, rfl, hi⟩
  | free c =>
    simp only [Env.step]
    by_cases ha : c ∈ s.live
    · rw [if_pos ha]
      obtain ⟨p, st, w, cp, f1, f2, f3, f4⟩ := hi.each c ha
      obtain ⟨h', e1, e2, e3, e4⟩ := free_some ok hi.ok f4
      rw [f1, e1]
      exact ⟨_, rfl, hi.erase ha f1 e2 e4⟩
    · rw [if_neg ha]; exact ⟨s, rfl, hi⟩
  | write c off v =>
    simp only [Env.step]
    by_cases ha : c ∈ s.live ∧ off < e.elt.size * c.cap
    · rw [if_pos ha]
      obtain ⟨p, st, w, cp, f1, f2, f3, f4⟩ := hi.each c ha.1
      have hl := e.layout_size ok f3
      obtain ⟨h', e1, e2, e3, e4, e5⟩ := put_some hi.ok f4.mem (a := c.ptr + off) (v := .data v)
        (show p ≤ c.ptr + off by omega) (show c.ptr + off < p + (e.layout c.cap).size by omega)
      rw [e1]
      refine ⟨_, rfl, by rw [e2]; exact hi.ok, hi.apart, fun d hd => ?_⟩
      obtain ⟨q, st, w, cp, g1, g2, g3, g4⟩ := hi.each d hd
      by_cases hdc : d = c
      · subst hdc
        have : q = p := by omega
        subst this
        exact ⟨q, st, w, cp, g1, g2, g3, by rw [e2]; exact g4.mem, g4.lo, g4.hi, fun k hk => by
          rw [e5 _ (by omega)]; exact g4.cells k hk⟩
      · refine ⟨q, st, w, cp, g1, g2, g3, g4.keep e4 fun hb => ?_⟩
        have := pairwise_mem (fun h => Ne.symm h) hi.apart d hd c ha.1 hdc
        have : q = p := congrArg Blk.base hb
        omega
    · rw [if_neg ha]; exact ⟨s, rfl, hi⟩
  | mark c strong weak capacity =>
    simp only [Env.step]
    by_cases ha : c ∈ s.live
    · rw [if_pos ha]
      obtain ⟨p, st, w, cp, f1, f2, f3, f4⟩ := hi.each c ha
      have hpp : c.ptr - e.pre.size = p := by omega
      have hg : e.prefix s.heap c.ptr = some ⟨st, w, cp, p⟩ := by
        unfold Env.prefix; rw [hpp]; exact f4.get ok.ps
      rw [hg]
      obtain ⟨h', e1, e2, e3, e4, _⟩ := putHdr_some hi.ok f4.mem f4.lo f4.hi (⟨strong, weak, capacity, p⟩ : APrefix)
      simp only [hpp, e1]
      refine ⟨_, rfl, by rw [e2]; exact hi.ok, hi.apart, fun d hd => ?_⟩
      by_cases hdc : d = c
      · subst hdc
        exact ⟨p, strong, weak, capacity, f1, f2, f3, e3⟩
      · obtain ⟨q, st, w, cp, g1, g2, g3, g4⟩ := hi.each d hd
        refine ⟨q, st, w, cp, g1, g2, g3, g4.keep e4 fun hb => ?_⟩
        have := pairwise_mem (fun h => Ne.symm h) hi.apart d hd c ha hdc
        have : q = p := congrArg Blk.base hb
        omega
    · rw [if_neg ha]; exact ⟨s, rfl, hi⟩

theorem run_inv {e : Env} (ok : e.Ok) : ∀ (acts : List AAct) (s : ASt), AInv e s → (∀ a ∈ acts, e.actFits a) →
    ∃ s', e.run s acts = some s' ∧ AInv e s'
  | [], s, hi, _ => ⟨s, rfl, hi⟩
  | a :: as, s, hi, hf => by
    obtain ⟨s1, e1, i1⟩ := step_inv ok hi a (hf a List.mem_cons_self)
    obtain ⟨s2, e2, i2⟩ := run_inv ok as s1 i1 fun b hb => hf b (List.mem_cons_of_mem _ hb)
    exact ⟨s2, by unfold Env.run; rw [e1]; exact e2, i2⟩

end Verif.Alloc
