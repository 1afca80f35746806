import Verif.Future.Model

/-! Property C41. -/
namespace Verif.Props.Waker
open Verif.Future

/-! ### Specification: what the same program does with plain wakers, each of which just knows its task -/

/-- The variables' tasks (`none` once moved out) and the tasks woken so far. -/
structure Spec where
  vars : List (Option Nat)
  woken : List Nat
deriving DecidableEq, Repr

def Spec.step (s : Spec) : Op → Spec
  | .new k => { s with vars := s.vars ++ [some k] }
  | .clone v _ => match s.vars[v]? with
    | some (some k) => { s with vars := s.vars ++ [some k] }
    | _ => s
  | .wakeByRef v _ => match s.vars[v]? with
    | some (some k) => { s with woken := s.woken ++ [k] }
    | _ => s
  | .wake v => match s.vars[v]? with
    | some (some k) => ⟨s.vars.set v none, s.woken ++ [k]⟩
    | _ => s
  | .drop v => match s.vars[v]? with
    | some (some _) => { s with vars := s.vars.set v none }
    | _ => s

def Spec.run (s : Spec) (os : List Op) : Spec := os.foldl Spec.step s

/-! ### Ownership -/

/-- `r` tells how many owners each waker has. -/
abbrev Refs := Handle → Nat

def add (r : Refs) (h : Handle) : Refs := fun g => r g + if g = h then 1 else 0
def sub (r : Refs) (h : Handle) : Refs := fun g => r g - if g = h then 1 else 0

/-- A handle to one of the first `n` blocks, or to an executor's waker. -/
def Below (n : Nat) : Handle → Prop
  | .base _ => True
  | .shared i => i < n

/-- Exactly the owned executor's wakers are alive. -/
def OkI (r : Refs) (insts : List Inst) : Prop := ∀ j, r (.base j) = match insts[j]? with
  | some ⟨_, true⟩ => 1
  | _ => 0

/-- The counters are the numbers of owners: the variables (`r`), and the live newer blocks. -/
def OkB (insts : List Inst) : Refs → List Block → Prop
  | r, [] => OkI r insts
  | r, b :: bs => r (.shared bs.length) = b.strong ∧ Below bs.length b.under ∧ b.alloc = 0 ∧
    OkB insts (if b.strong = 0 then r else add r b.under) bs

theorem OkB.congr {insts : List Inst} {r r' : Refs} {bs : List Block} (h : OkB insts r bs) (he : ∀ g, Below bs.length g → r g = r' g) : OkB insts r' bs := by
  induction bs generalizing r r' with
  | nil =>
    intro j
    rw [← he (.base j) trivial]
    exact h j
  | cons b bs ih =>
    obtain ⟨h1, h2, h3, h4⟩ := h
    refine ⟨by rw [← he (.shared bs.length) (Nat.lt_succ_self _)]; exact h1, h2, h3, ih h4 ?_⟩
    intro g hg
    have := he g (by cases g with
      | base j => trivial
      | shared i => exact Nat.lt_succ_of_lt hg)
    split
    · exact this
    · simp only [add, this]

theorem below_ne {n : Nat} {h : Handle} (hb : Below n h) : h ≠ .shared n := by
  rintro rfl; exact Nat.lt_irrefl _ hb

theorem pos_bump {r : Refs} {g u : Handle} {s : Nat} (h : 0 < r g) : 0 < (if s = 0 then r else add r u) g := by
  split
  · exact h
  · simp only [add]; omega

/-- Only existing blocks have owners. -/
def Bounded (r : Refs) (n : Nat) : Prop := ∀ g, ¬ Below n g → r g = 0

/-! ### Waking -/

theorem wake_ok {insts : List Inst} {r : Refs} {bs : List Block} (h : OkB insts r bs) {g : Handle} (hg : Below bs.length g) (hr : 0 < r g) : ∃ k, wakeIn insts bs g = some k := by
  induction bs generalizing r g with
  | nil =>
    cases g with
    | shared i => exact absurd hg (Nat.not_lt_zero _)
    | base j =>
      have := h j
      simp only [wakeIn, wakeBase]
      split at this
      · rename_i k hk; exact ⟨k, by rw [hk]⟩
      · omega
  | cons b bs ih =>
    obtain ⟨h1, h2, h3, h4⟩ := h
    cases g with
    | base j =>
      simp only [wakeIn]
      have := ih h4 (g := .base j) trivial (pos_bump hr)
      cases bs <;> simpa only [wakeIn] using this
    | shared i =>
      simp only [wakeIn]
      by_cases hi : i = bs.length
      · subst hi
        rw [h1] at hr
        rw [if_pos rfl, if_neg (by omega)]
        rw [if_neg (by omega)] at h4
        exact ih h4 h2 (by simp [add])
      · rw [if_neg hi]
        exact ih h4 (by simp only [Below, List.length_cons] at *; omega) (pos_bump hr)

/-- A block keeps what it wakes while it lives, whatever happens to the others. -/
def SameTasks (r : Refs) (insts : List Inst) (bs : List Block) (insts' : List Inst) (bs' : List Block) : Prop :=
  ∀ g, Below bs.length g → 0 < r g → wakeIn insts' bs' g = wakeIn insts bs g

theorem wakeIn_base (insts : List Inst) (bs : List Block) (j : Nat) : wakeIn insts bs (.base j) = wakeBase insts j := by cases bs <;> rfl

/-! ### Dropping -/

theorem dropBase_ok {insts : List Inst} {r : Refs} (h : OkI r insts) {j : Nat} (hr : 0 < r (.base j)) :
    ∃ insts', dropBase insts j = some insts' ∧ OkI (sub r (.base j)) insts' ∧ ∀ i, 0 < sub r (.base j) (.base i) → wakeBase insts' i = wakeBase insts i := by
  have hj := h j
  cases hk : insts[j]? with
  | none => rw [hk] at hj; simp at hj; omega
  | some x =>
    obtain ⟨k, a⟩ := x
    cases a with
    | false => rw [hk] at hj; simp at hj; omega
    | true =>
      rw [hk] at hj
      have hlt := (List.getElem?_eq_some_iff.mp hk).1
      refine ⟨insts.set j ⟨k, false⟩, by simp [dropBase, hk], ?_, ?_⟩
      · intro i
        by_cases hi : i = j
        · subst hi; simp only [sub, if_true]; rw [hj]; simp [hlt]
        · have := h i
          rw [List.getElem?_set_ne (Ne.symm hi)]
          simp only [sub, Handle.base.injEq, hi, if_false, Nat.sub_zero]
          exact this
      · intro i hi
        by_cases hij : i = j
        · subst hij; simp only [sub, if_true] at hi; rw [hj] at hi; simp at hi
        · simp [wakeBase, List.getElem?_set_ne (Ne.symm hij)]

theorem drop_ok {insts : List Inst} {r : Refs} {bs : List Block} (h : OkB insts r bs) {g : Handle} (hg : Below bs.length g) (hr : 0 < r g) :
    ∃ insts' bs', dropIn insts bs g = some (insts', bs') ∧ bs'.length = bs.length ∧ insts'.length = insts.length ∧ OkB insts' (sub r g) bs' ∧
      SameTasks (sub r g) insts bs insts' bs' := by
  induction bs generalizing r g with
  | nil =>
    cases g with
    | shared i => exact absurd hg (Nat.not_lt_zero _)
    | base j =>
      obtain ⟨insts', h1, h2, h3⟩ := dropBase_ok h hr
      refine ⟨insts', [], by simp [dropIn, h1], rfl, ?_, h2, ?_⟩
      · unfold dropBase at h1; split at h1 <;> simp at h1; subst h1; simp
      · intro g hg hr
        cases g with
        | shared i => exact absurd hg (Nat.not_lt_zero _)
        | base i => exact h3 i hr
  | cons b bs ih =>
    obtain ⟨h1, h2, h3, h4⟩ := h
    -- a drop that happens behind this block
    have behind : ∀ (g : Handle), Below bs.length g → 0 < r g → ∃ insts' bs', dropIn insts bs g = some (insts', bs') ∧ bs'.length = bs.length ∧ insts'.length = insts.length ∧
        OkB insts' (sub r g) (b :: bs') ∧ SameTasks (sub r g) insts (b :: bs) insts' (b :: bs') := by
      intro g hg hr
      have hne := below_ne hg
      obtain ⟨insts', bs', e1, e2, e3, e4, e5⟩ := ih h4 hg (pos_bump hr)
      refine ⟨insts', bs', e1, e2, e3, ⟨?_, by rw [e2]; exact h2, h3, e4.congr ?_⟩, ?_⟩
      · rw [e2]; simp only [sub, if_neg hne.symm, Nat.sub_zero]; exact h1
      · intro x _
        split
        · rfl
        · simp only [sub, add]
          by_cases hx : x = g
          · subst hx; simp; omega
          · simp [hx]
      · intro x hx hxr
        cases x with
        | base i =>
          have := e5 (.base i) trivial (by simp only [sub] at hxr ⊢; exact Nat.lt_of_lt_of_le hxr (Nat.sub_le_sub_right (by split <;> simp [add]) _))
          rw [wakeIn_base] at *; rw [wakeIn_base] at *; exact this
        | shared i =>
          simp only [wakeIn, e2]
          by_cases hi : i = bs.length
          · subst hi
            rw [if_pos rfl, if_pos rfl]
            by_cases hs : b.strong = 0
            · rw [if_pos hs, if_pos hs]
            · rw [if_neg hs, if_neg hs]
              rw [if_neg hs] at e5
              refine e5 _ h2 ?_
              simp only [sub, add, if_true]
              by_cases hu : b.under = g
              · subst hu; simp; omega
              · simp [hu]
          · rw [if_neg hi, if_neg hi]
            refine e5 _ (by simp only [Below, List.length_cons] at *; omega) ?_
            simp only [sub] at hxr ⊢; exact Nat.lt_of_lt_of_le hxr (Nat.sub_le_sub_right (by split <;> simp [add]) _)
    cases g with
    | base j =>
      obtain ⟨insts', bs', e1, e2, e3, e4, e5⟩ := behind (.base j) trivial hr
      have hd : ∀ bs : List Block, dropIn insts bs (.base j) = (dropBase insts j).bind fun i => some (i, bs) := by intro bs; cases bs <;> rfl
      rw [hd] at e1
      cases hb : dropBase insts j with
      | none => rw [hb] at e1; cases e1
      | some i =>
        rw [hb] at e1
        simp at e1
        obtain ⟨rfl, rfl⟩ := e1
        exact ⟨i, b :: bs, by rw [hd, hb]; rfl, rfl, e3, e4, e5⟩
    | shared i =>
      simp only [dropIn]
      by_cases hi : i = bs.length
      · subst hi
        rw [h1] at hr
        rw [if_pos rfl, if_neg (by omega)]
        rw [if_neg (by omega)] at h4
        by_cases hs : b.strong = 1
        · rw [if_pos hs, if_neg (by simp [h3])]
          obtain ⟨insts', bs', e1, e2, e3, e4, e5⟩ := ih h4 h2 (by simp [add])
          refine ⟨insts', { b with strong := 0 } :: bs', by simp [e1], by simp [e2], e3, ⟨?_, by rw [e2]; exact h2, h3, ?_⟩, ?_⟩
          · rw [e2]; simp [sub]; omega
          · simp only [if_true]
            refine e4.congr ?_
            intro x hx
            rw [e2] at hx
            simp only [sub, add, if_neg (below_ne hx), Nat.sub_zero]
            split <;> omega
          · intro x hx hxr
            cases x with
            | base i =>
              have := e5 (.base i) trivial (by
                simp only [sub, add] at hxr ⊢
                rw [if_neg (by simp)] at hxr; split <;> omega)
              rw [wakeIn_base] at *; rw [wakeIn_base] at *; exact this
            | shared i =>
              simp only [wakeIn, e2]
              by_cases hi : i = bs.length
              · subst hi; simp [sub] at hxr; omega
              · rw [if_neg hi, if_neg hi]
                refine e5 _ (by simp only [Below, List.length_cons] at *; omega) ?_
                have : Handle.shared i ≠ Handle.shared bs.length := by simpa using hi
                simp only [sub, add] at hxr ⊢
                rw [if_neg this] at hxr; split <;> omega
        · rw [if_neg hs]
          refine ⟨insts, { b with strong := b.strong - 1 } :: bs, rfl, rfl, rfl, ⟨?_, h2, h3, ?_⟩, ?_⟩
          · simp [sub]; omega
          · simp only
            rw [if_neg (by omega)]
            refine h4.congr ?_
            intro x hx
            simp [add, sub, below_ne hx]
          · intro x hx hxr
            cases x with
            | base i => rfl
            | shared i =>
              simp only [wakeIn]
              by_cases hi : i = bs.length
              · subst hi
                rw [if_pos rfl, if_pos rfl, if_neg (by omega), if_neg (by omega)]
              · rw [if_neg hi, if_neg hi]
      · rw [if_neg hi]
        obtain ⟨insts', bs', e1, e2, e3, e4, e5⟩ := behind (.shared i) (by simp only [Below, List.length_cons] at *; omega) hr
        exact ⟨insts', b :: bs', by simp [e1], by simp [e2], e3, e4, e5⟩

/-! ### Cloning -/

theorem incr_ok {insts : List Inst} {r : Refs} {bs : List Block} (h : OkB insts r bs) {i : Nat} (hg : i < bs.length) (hr : 0 < r (.shared i)) :
    ∃ bs', incr bs i = some bs' ∧ bs'.length = bs.length ∧ OkB insts (add r (.shared i)) bs' ∧ ∀ g, wakeIn insts bs' g = wakeIn insts bs g := by
  induction bs generalizing r with
  | nil => exact absurd hg (Nat.not_lt_zero _)
  | cons b bs ih =>
    obtain ⟨h1, h2, h3, h4⟩ := h
    simp only [incr]
    by_cases hi : i = bs.length
    · subst hi
      rw [h1] at hr
      rw [if_pos rfl, if_neg (by omega)]
      refine ⟨_, rfl, rfl, ⟨by simp [add, h1], h2, h3, ?_⟩, ?_⟩
      · simp only
        rw [if_neg (by omega)]
        rw [if_neg (by omega)] at h4
        refine h4.congr ?_
        intro x hx
        simp [add, below_ne hx]
      · intro g
        cases g with
        | base j => rfl
        | shared i =>
          simp only [wakeIn]
          by_cases hi : i = bs.length
          · subst hi; rw [if_pos rfl, if_pos rfl, if_neg (by omega), if_neg (by omega)]
          · rw [if_neg hi, if_neg hi]
    · rw [if_neg hi]
      obtain ⟨bs', e1, e2, e3, e4⟩ := ih h4 (by simp only [List.length_cons] at hg; omega) (pos_bump hr)
      refine ⟨b :: bs', by simp [e1], by simp [e2], ⟨?_, by rw [e2]; exact h2, h3, e3.congr ?_⟩, ?_⟩
      · rw [e2]
        have : bs.length ≠ i := fun h => hi h.symm
        simp [add, this, h1]
      · intro x _
        split
        · rfl
        · simp only [add]; omega
      · intro g
        cases g with
        | base j => rfl
        | shared i => simp only [wakeIn, e2, e4]

theorem OkI.push {r : Refs} {insts : List Inst} (h : OkI r insts) (k : Nat) : OkI (add r (.base insts.length)) (insts ++ [⟨k, true⟩]) := by
  intro i
  have := h i
  by_cases hi : i = insts.length
  · subst hi; simp at this; simp [add, this]
  · simp only [add, Handle.base.injEq, hi, if_false, Nat.add_zero, this]
    by_cases hl : i < insts.length
    · rw [List.getElem?_append_left hl]
    · rw [List.getElem?_eq_none (by omega), List.getElem?_eq_none (by simp; omega)]

theorem OkB.push {r : Refs} {insts : List Inst} {bs : List Block} (h : OkB insts r bs) (k : Nat) : OkB (insts ++ [⟨k, true⟩]) (add r (.base insts.length)) bs := by
  induction bs generalizing r with
  | nil => exact OkI.push h k
  | cons b bs ih =>
    obtain ⟨h1, h2, h3, h4⟩ := h
    refine ⟨by simp [add, h1], h2, h3, (ih h4).congr ?_⟩
    intro x _
    split
    · rfl
    · simp only [add]; omega

theorem wakeBase_push {insts : List Inst} {j k : Nat} {x : Inst} (h : wakeBase insts j = some k) : wakeBase (insts ++ [x]) j = some k := by
  unfold wakeBase at *
  split at h
  · rename_i k' hk
    have := (List.getElem?_eq_some_iff.mp hk).1
    rw [List.getElem?_append_left this, hk]
    exact h
  · cases h

theorem wakeIn_push {insts : List Inst} {bs : List Block} {g : Handle} {k : Nat} {x : Inst} (h : wakeIn insts bs g = some k) : wakeIn (insts ++ [x]) bs g = some k := by
  induction bs generalizing g with
  | nil => cases g with
    | base j => exact wakeBase_push h
    | shared i => cases h
  | cons b bs ih => cases g with
    | base j => exact wakeBase_push h
    | shared i =>
      simp only [wakeIn] at *
      split
      · rename_i hi
        rw [if_pos hi] at h
        split
        · rename_i hs; rw [if_pos hs] at h; cases h
        · rename_i hs; rw [if_neg hs] at h; exact ih h
      · rename_i hi
        rw [if_neg hi] at h
        exact ih h

/-- What cloning gives, plainly or through exposed wakers: a new owner of a waker for the same task, everything else as before. -/
structure Cloned (m : Mem) (r : Refs) (h : Handle) (m' : Mem) (g : Handle) : Prop where
  ok : OkB m'.insts (add r g) m'.blocks
  below : Below m'.blocks.length g
  more : m.blocks.length ≤ m'.blocks.length
  woken : m'.woken = m.woken
  task : wakeIn m'.insts m'.blocks g = wakeIn m.insts m.blocks h
  same : ∀ x k, Below m.blocks.length x → wakeIn m.insts m.blocks x = some k → wakeIn m'.insts m'.blocks x = some k

theorem clone_ok {m : Mem} {r : Refs} (hk : OkB m.insts r m.blocks) {h : Handle} (hb : Below m.blocks.length h) (hr : 0 < r h) : ∃ m' g, m.clone h = some (m', g) ∧ Cloned m r h m' g := by
  obtain ⟨t, ht⟩ := wake_ok hk hb hr
  cases h with
  | shared i =>
    obtain ⟨bs', e1, e2, e3, e4⟩ := incr_ok hk hb hr
    exact ⟨{ m with blocks := bs' }, .shared i, by simp [Mem.clone, e1], e3, by simp only [e2]; exact hb, by simp [e2], rfl, e4 _, fun x k _ hx => by rw [← hx]; exact e4 x⟩
  | base j =>
    rw [wakeIn_base] at ht
    have ht' := ht
    unfold wakeBase at ht
    split at ht
    · rename_i k hkj
      cases ht
      refine ⟨{ m with insts := m.insts ++ [⟨t, true⟩] }, .base m.insts.length, by simp [Mem.clone, hkj], hk.push t, trivial, Nat.le_refl _, rfl, ?_, fun x k _ hx => wakeIn_push hx⟩
      rw [wakeIn_base, wakeIn_base, ht']
      simp [wakeBase]
    · cases ht

theorem cloneVia_ok {m : Mem} {r : Refs} (hk : OkB m.insts r m.blocks) (hbd : Bounded r m.blocks.length) {h : Handle} (hb : Below m.blocks.length h) (hr : 0 < r h) :
    ∀ as : List Nat, (∀ a ∈ as, a = 0) → ∃ m' g, m.cloneVia h as = some (m', g) ∧ Cloned m r h m' g := by
  intro as
  induction as with
  | nil => intro _; exact clone_ok hk hb hr
  | cons a as ih =>
    intro ha
    obtain ⟨m1, g1, e1, c⟩ := ih (fun a h => ha a (by simp [h]))
    have ha0 : a = 0 := ha a (by simp)
    subst ha0
    refine ⟨{ m1 with blocks := ⟨1, g1, 0⟩ :: m1.blocks }, .shared m1.blocks.length, by simp [Mem.cloneVia, e1], ⟨⟨?_, c.below, rfl, ?_⟩, Nat.lt_succ_self _, ?_, c.woken, ?_, ?_⟩⟩
    · -- nobody owned the new block before
      have h0 := hbd (.shared m1.blocks.length) (by have := c.more; simp only [Below]; omega)
      simp [add, h0]
    · simp only [Nat.one_ne_zero, if_false]
      refine c.ok.congr ?_
      intro x hx
      simp [add, below_ne hx]
    · have := c.more; simp; omega
    · simp only [wakeIn, if_true, Nat.one_ne_zero, if_false]
      exact c.task
    · intro x k hx hw
      have := c.same x k hx hw
      cases x with
      | base j => rw [wakeIn_base] at *; exact this
      | shared i =>
        have h2 := c.more
        simp only [Below] at hx
        simp only [wakeIn]
        rw [if_neg (by omega)]
        exact this

/-! ### Programs -/

/-- The owners that are variables. -/
def owners (vars : List (Option Handle)) : Refs := fun g => vars.count (some g)

structure Inv (p : Prog) (s : Spec) : Prop where
  ok : OkB p.mem.insts (owners p.vars) p.mem.blocks
  below : ∀ h, some h ∈ p.vars → Below p.mem.blocks.length h
  woken : p.mem.woken = s.woken
  len : p.vars.length = s.vars.length
  tasks : ∀ v : Nat, match p.vars[v]?, s.vars[v]? with
    | some (some h), some (some k) => wakeIn p.mem.insts p.mem.blocks h = some k
    | some none, some none => True
    | none, none => True
    | _, _ => False

theorem owners_pos {vars : List (Option Handle)} {h : Handle} (hm : some h ∈ vars) : 0 < owners vars h := List.count_pos_iff.mpr hm

theorem Inv.bounded {p : Prog} {s : Spec} (h : Inv p s) : Bounded (owners p.vars) p.mem.blocks.length := by
  intro g hg
  by_cases h0 : owners p.vars g = 0
  · exact h0
  · exact absurd (h.below g (List.count_pos_iff.mp (by simp only [owners] at h0; omega))) hg

theorem owners_push (vars : List (Option Handle)) (h : Handle) : owners (vars ++ [some h]) = add (owners vars) h := by
  funext g
  simp only [owners, add, List.count_append, List.count_singleton]
  by_cases hg : g = h
  · subst hg; simp
  · have : ¬ h = g := fun e => hg e.symm
    simp [hg, this]

theorem count_set_none {vars : List (Option Handle)} {v : Nat} {h : Handle} (hv : vars[v]? = some (some h)) (g : Handle) :
    (vars.set v none).count (some g) + (if g = h then 1 else 0) = vars.count (some g) := by
  induction vars generalizing v with
  | nil => simp at hv
  | cons x xs ih =>
    cases v with
    | zero =>
      simp at hv; subst hv
      simp only [List.set_cons_zero, List.count_cons]
      by_cases hg : g = h
      · subst hg; simp
      · have : ¬ h = g := fun e => hg e.symm
        simp [hg, this]
    | succ v =>
      simp at hv
      have := ih hv
      simp only [List.set_cons_succ, List.count_cons]
      omega

theorem owners_set {vars : List (Option Handle)} {v : Nat} {h : Handle} (hv : vars[v]? = some (some h)) : owners (vars.set v none) = sub (owners vars) h := by
  funext g
  have := count_set_none hv g
  simp only [owners, sub]
  omega

theorem inv_init : Inv Prog.init ⟨[], []⟩ :=
  ⟨fun j => by simp [owners, Prog.init], by simp [Prog.init], rfl, rfl, fun v => by simp [Prog.init]⟩

/-- A new variable for a task. -/
theorem Inv.pushed {p : Prog} {s : Spec} (h : Inv p s) {m : Mem} {g : Handle} {k : Nat} (hok : OkB m.insts (add (owners p.vars) g) m.blocks) (hb : Below m.blocks.length g)
    (hmore : p.mem.blocks.length ≤ m.blocks.length) (hw : m.woken = p.mem.woken) (ht : wakeIn m.insts m.blocks g = some k)
    (hsame : ∀ x k, Below p.mem.blocks.length x → wakeIn p.mem.insts p.mem.blocks x = some k → wakeIn m.insts m.blocks x = some k) :
    Inv ⟨m, p.vars ++ [some g]⟩ { s with vars := s.vars ++ [some k] } := by
  refine ⟨by rw [owners_push]; exact hok, ?_, by rw [← h.woken]; exact hw, by simp [h.len], ?_⟩
  · intro x hx
    simp at hx
    rcases hx with hx | rfl
    · have := h.below x hx
      cases x with
      | base j => trivial
      | shared i => exact Nat.lt_of_lt_of_le this hmore
    · exact hb
  · intro v
    have hv := h.tasks v
    have hl := h.len
    by_cases hlt : v < p.vars.length
    · simp only [List.getElem?_append_left hlt, List.getElem?_append_left (hl ▸ hlt)]
      cases hp : p.vars[v]? with
      | none => rw [List.getElem?_eq_none_iff] at hp; omega
      | some x =>
        cases hs : s.vars[v]? with
        | none => rw [List.getElem?_eq_none_iff] at hs; omega
        | some y =>
          rw [hp, hs] at hv
          cases x with
          | none => cases y <;> simp_all
          | some x =>
            cases y with
            | none => simp_all
            | some y => exact hsame x y (h.below x (List.mem_of_getElem? hp)) hv
    · by_cases hv : v = p.vars.length
      · subst hv; simp [hl, ht]
      · rw [List.getElem?_eq_none (by simp; omega), List.getElem?_eq_none (by simp; omega)]; trivial

/-- A variable moved out and dropped. -/
theorem Inv.dropped {p : Prog} {s : Spec} (h : Inv p s) {v : Nat} {g : Handle} (hv : p.vars[v]? = some (some g)) :
    ∃ m, p.mem.drop g = some m ∧ Inv ⟨m, p.vars.set v none⟩ { s with vars := s.vars.set v none } := by
  have hmem := List.mem_of_getElem? hv
  obtain ⟨insts', bs', e1, e2, e3, e4, e5⟩ := drop_ok h.ok (h.below g hmem) (owners_pos hmem)
  refine ⟨{ p.mem with insts := insts', blocks := bs' }, by simp [Mem.drop, e1], ⟨by rw [owners_set hv]; exact e4, ?_, h.woken, by simp [h.len], ?_⟩⟩
  · intro x hx
    simp only [e2]
    exact h.below x ((List.mem_or_eq_of_mem_set hx).resolve_right (by simp))
  · intro u
    have hu := h.tasks u
    have hl := h.len
    simp only
    by_cases huv : u = v
    · subst huv
      have hlt := (List.getElem?_eq_some_iff.mp hv).1
      simp [hlt, hl ▸ hlt]
    · rw [List.getElem?_set_ne (Ne.symm huv), List.getElem?_set_ne (Ne.symm huv)]
      cases hp : p.vars[u]? with
      | none => cases hs : s.vars[u]? with
        | none => trivial
        | some y => rw [hp, hs] at hu; exact hu
      | some x =>
        cases hs : s.vars[u]? with
        | none => rw [hp, hs] at hu; cases x <;> exact hu
        | some y =>
          rw [hp, hs] at hu
          cases x with
          | none => cases y <;> simp_all
          | some x =>
            cases y with
            | none => simp_all
            | some y =>
              simp only at hu ⊢
              rw [← hu]
              refine e5 x (h.below x (List.mem_of_getElem? hp)) ?_
              rw [← owners_set hv]
              refine owners_pos (List.mem_of_getElem? (i := u) ?_)
              rw [List.getElem?_set_ne (Ne.symm huv), hp]

theorem Inv.task {p : Prog} {s : Spec} (h : Inv p s) {v : Nat} {g : Handle} (hv : p.vars[v]? = some (some g)) : ∃ k, s.vars[v]? = some (some k) ∧ wakeIn p.mem.insts p.mem.blocks g = some k := by
  have := h.tasks v
  rw [hv] at this
  cases hs : s.vars[v]? with
  | none => rw [hs] at this; exact this.elim
  | some y => cases y with
    | none => rw [hs] at this; exact this.elim
    | some k => rw [hs] at this; exact ⟨k, rfl, this⟩

theorem Inv.notask {p : Prog} {s : Spec} (h : Inv p s) {v : Nat} (hv : ∀ g, p.vars[v]? ≠ some (some g)) : ∀ k, s.vars[v]? ≠ some (some k) := by
  intro k hk
  have := h.tasks v
  rw [hk] at this
  cases hp : p.vars[v]? with
  | none => rw [hp] at this; exact this
  | some x => cases x with
    | none => rw [hp] at this; exact this
    | some g => exact hv g hp

theorem wakeVia_eq (m : Mem) (h : Handle) : ∀ as : List Nat, m.wakeVia h as = m.wakeByRef h
  | [] => rfl
  | _ :: as => wakeVia_eq m h as

/-- Every `StableWaker` of the program uses the default allocator (as the ones passed to `poll` do, future.rs:182). -/
def DefaultAlloc : Op → Prop
  | .clone _ as | .wakeByRef _ as => ∀ a ∈ as, a = 0
  | _ => True

theorem inv_step {p : Prog} {s : Spec} (h : Inv p s) (o : Op) (ho : DefaultAlloc o) : ∃ p', p.step o = some p' ∧ Inv p' (s.step o) := by
  cases o with
  | new k =>
    refine ⟨_, rfl, h.pushed (h.ok.push k) trivial (Nat.le_refl _) rfl ?_ (fun x k' _ hx => wakeIn_push hx)⟩
    rw [wakeIn_base]; simp [wakeBase]
  | clone v as =>
    by_cases hv : ∃ g, p.vars[v]? = some (some g)
    · obtain ⟨g, hg⟩ := hv
      obtain ⟨k, hk, ht⟩ := h.task hg
      have hm := List.mem_of_getElem? hg
      obtain ⟨m, g', e, c⟩ := cloneVia_ok h.ok h.bounded (h.below g hm) (owners_pos hm) as ho
      refine ⟨⟨m, p.vars ++ [some g']⟩, by simp [Prog.step, hg, e], ?_⟩
      simp only [Spec.step, hk]
      exact h.pushed c.ok c.below c.more c.woken (by rw [c.task]; exact ht) c.same
    · have hv' : ∀ g, p.vars[v]? ≠ some (some g) := fun g hg => hv ⟨g, hg⟩
      refine ⟨p, ?_, ?_⟩
      · simp only [Prog.step]
      · simp only [Spec.step]
        split
        · rename_i k hk; exact absurd hk (h.notask hv' k)
        · exact h
  | wakeByRef v as =>
    by_cases hv : ∃ g, p.vars[v]? = some (some g)
    · obtain ⟨g, hg⟩ := hv
      obtain ⟨k, hk, ht⟩ := h.task hg
      refine ⟨{ p with mem := { p.mem with woken := p.mem.woken ++ [k] } }, by simp [Prog.step, hg, wakeVia_eq, Mem.wakeByRef, ht], ?_⟩
      simp only [Spec.step, hk]
      exact ⟨h.ok, h.below, by simp [h.woken], h.len, h.tasks⟩
    · have hv' : ∀ g, p.vars[v]? ≠ some (some g) := fun g hg => hv ⟨g, hg⟩
      refine ⟨p, ?_, ?_⟩
      · simp only [Prog.step]
      · simp only [Spec.step]
        split
        · rename_i k hk; exact absurd hk (h.notask hv' k)
        · exact h
  | wake v =>
    by_cases hv : ∃ g, p.vars[v]? = some (some g)
    · obtain ⟨g, hg⟩ := hv
      obtain ⟨k, hk, ht⟩ := h.task hg
      have h1 : Inv { p with mem := { p.mem with woken := p.mem.woken ++ [k] } } { s with woken := s.woken ++ [k] } := ⟨h.ok, h.below, by simp [h.woken], h.len, h.tasks⟩
      obtain ⟨m, e, hi⟩ := h1.dropped hg
      refine ⟨_, by simp [Prog.step, hg, Mem.wake, Mem.wakeByRef, ht]; simp only at e; rw [e]; rfl, ?_⟩
      simp only [Spec.step, hk]
      exact hi
    · have hv' : ∀ g, p.vars[v]? ≠ some (some g) := fun g hg => hv ⟨g, hg⟩
      refine ⟨p, ?_, ?_⟩
      · simp only [Prog.step]
      · simp only [Spec.step]
        split
        · rename_i k hk; exact absurd hk (h.notask hv' k)
        · exact h
  | drop v =>
    by_cases hv : ∃ g, p.vars[v]? = some (some g)
    · obtain ⟨g, hg⟩ := hv
      obtain ⟨k, hk, ht⟩ := h.task hg
      obtain ⟨m, e, hi⟩ := h.dropped hg
      refine ⟨_, by simp [Prog.step, hg, e]; rfl, ?_⟩
      simp only [Spec.step, hk]
      exact hi
    · have hv' : ∀ g, p.vars[v]? ≠ some (some g) := fun g hg => hv ⟨g, hg⟩
      refine ⟨p, ?_, ?_⟩
      · simp only [Prog.step]
      · simp only [Spec.step]
        split
        · rename_i k hk; exact absurd hk (h.notask hv' k)
        · exact h

theorem inv_run {p : Prog} {s : Spec} (h : Inv p s) (os : List Op) (ho : ∀ o ∈ os, DefaultAlloc o) : ∃ p', p.run os = some p' ∧ Inv p' (s.run os) := by
  induction os generalizing p s with
  | nil => exact ⟨p, rfl, h⟩
  | cons o os ih =>
    obtain ⟨p1, e1, h1⟩ := inv_step h o (ho o (by simp))
    obtain ⟨p2, e2, h2⟩ := ih h1 (fun o h => ho o (by simp [h]))
    exact ⟨p2, by simp [Prog.run, e1, e2], h2⟩

/-! ### C41 -/

/-- An executor's waker for task `k` is alive. -/
def Alive (p : Prog) (k : Nat) : Prop := (⟨k, true⟩ : Inst) ∈ p.mem.insts

theorem wakeIn_alive {insts : List Inst} {bs : List Block} {g : Handle} {k : Nat} (h : wakeIn insts bs g = some k) : (⟨k, true⟩ : Inst) ∈ insts := by
  induction bs generalizing g with
  | nil => cases g with
    | base j =>
      simp only [wakeIn, wakeBase] at h
      split at h
      · rename_i hj; cases h; exact List.mem_of_getElem? hj
      · cases h
    | shared i => cases h
  | cons b bs ih => cases g with
    | base j => exact ih (g := .base j) (by rw [wakeIn_base] at *; exact h)
    | shared i =>
      simp only [wakeIn] at h
      split at h
      · split at h
        · cases h
        · exact ih h
      · exact ih h

/-- **C41** (for `StableWaker`s with the default allocator, which is what futures are polled with): for every history of cloning, waking and dropping, through any number
of nested boundaries, no freed waker or block is ever used and none is released twice (the run is defined); each wake wakes the task of its waker, once and in order
(`woken`); and while a variable holds a waker of a task, an executor's waker for the task is alive.
Missing: `StableWaker`s with another allocator, for which it is false, see `C41_other_allocator_refuted`. -/
theorem C41_wakers_partial (os : List Op) (ho : ∀ o ∈ os, DefaultAlloc o) :
    ∃ p, Prog.init.run os = some p ∧ p.mem.woken = (Spec.run ⟨[], []⟩ os).woken ∧ ∀ k, some k ∈ (Spec.run ⟨[], []⟩ os).vars → Alive p k := by
  obtain ⟨p, e, h⟩ := inv_run inv_init os ho
  refine ⟨p, e, h.woken, fun k hk => ?_⟩
  obtain ⟨v, hv⟩ := List.getElem?_of_mem hk
  have := h.tasks v
  rw [hv] at this
  cases hp : p.vars[v]? with
  | none => rw [hp] at this; exact this.elim
  | some x => cases x with
    | none => rw [hp] at this; exact this.elim
    | some g => rw [hp] at this; exact wakeIn_alive this

theorem okB_empty {insts : List Inst} {bs : List Block} {r : Refs} (h : OkB insts r bs) (hr : ∀ g, r g = 0) : (∀ x ∈ insts, x.alive = false) ∧ ∀ b ∈ bs, b.strong = 0 := by
  induction bs with
  | nil =>
    refine ⟨fun x hx => ?_, by simp⟩
    obtain ⟨j, hj⟩ := List.getElem?_of_mem hx
    have := h j
    rw [hr, hj] at this
    obtain ⟨k, a⟩ := x
    cases a with
    | false => rfl
    | true => simp at this
  | cons b bs ih =>
    obtain ⟨h1, h2, h3, h4⟩ := h
    rw [hr] at h1
    rw [if_pos h1.symm] at h4
    obtain ⟨h5, h6⟩ := ih h4
    refine ⟨h5, fun c hc => ?_⟩
    rcases List.mem_cons.mp hc with rfl | hc
    · exact h1.symm
    · exact h6 c hc

/-- **C41** (no leak): once every variable was dropped or consumed by `wake`, every executor's waker — the original ones and all clones — has been released (exactly
once, as releasing twice is undefined), and every block has been freed. -/
theorem C41_no_leak_partial (os : List Op) (ho : ∀ o ∈ os, DefaultAlloc o) (hd : ∀ x ∈ (Spec.run ⟨[], []⟩ os).vars, x = none) :
    ∃ p, Prog.init.run os = some p ∧ (∀ x ∈ p.mem.insts, x.alive = false) ∧ ∀ b ∈ p.mem.blocks, b.strong = 0 := by
  obtain ⟨p, e, h⟩ := inv_run inv_init os ho
  refine ⟨p, e, okB_empty h.ok fun g => ?_⟩
  by_cases h0 : owners p.vars g = 0
  · exact h0
  · have hm := List.count_pos_iff.mp (show 0 < p.vars.count (some g) by simp only [owners] at h0; omega)
    obtain ⟨v, hv⟩ := List.getElem?_of_mem hm
    obtain ⟨k, hk, _⟩ := h.task hv
    exact absurd (hd _ (List.mem_of_getElem? hk)) (by simp)

/-- **C41** (a waker outlives its siblings, and dies with the last): after dropping all variables of task `k`, no executor's waker for `k` is alive, even though wakers
of other tasks are. -/
theorem C41_released_partial (os : List Op) (ho : ∀ o ∈ os, DefaultAlloc o) (k : Nat) (hk : some k ∉ (Spec.run ⟨[], []⟩ os).vars) :
    ∃ p, Prog.init.run os = some p ∧ ¬ Alive p k := by
  obtain ⟨p, e, h⟩ := inv_run inv_init os ho
  refine ⟨p, e, fun ha => ?_⟩
  -- every live waker is reached from a variable
  have key : ∀ (bs : List Block) (r : Refs), OkB p.mem.insts r bs → Bounded r bs.length → (∀ g, 0 < r g → wakeIn p.mem.insts bs g ≠ some k) → False := by
    intro bs
    induction bs with
    | nil =>
      intro r hok _ hw
      obtain ⟨j, hj⟩ := List.getElem?_of_mem ha
      have := hok j
      rw [hj] at this
      exact hw (.base j) (by rw [this]; exact Nat.one_pos) (by simp [wakeIn, wakeBase, hj])
    | cons b bs ih =>
      intro r hok hbd hw
      obtain ⟨h1, h2, h3, h4⟩ := hok
      refine ih _ (h4.congr (r' := fun g => if g = .shared bs.length then 0 else (if b.strong = 0 then r else add r b.under) g) ?_) ?_ ?_
      · intro g hg; simp [below_ne hg]
      · intro g hg
        by_cases hgl : g = .shared bs.length
        · simp [hgl]
        · simp only [hgl, if_false]
          have hg' : ¬ Below (b :: bs).length g := by
            cases g with
            | base j => exact absurd trivial hg
            | shared i =>
              simp only [Below, List.length_cons] at *
              intro h
              exact hgl (by congr; omega)
          have h0 := hbd g hg'
          split
          · exact h0
          · have hne : g ≠ b.under := by rintro rfl; exact hg h2
            simp [add, h0, hne]
      · intro g hg hwk
        by_cases hgl : g = .shared bs.length
        · simp [hgl] at hg
        · simp only [hgl, if_false] at hg
          have hsame : ∀ g, g ≠ .shared bs.length → wakeIn p.mem.insts (b :: bs) g = wakeIn p.mem.insts bs g := by
            intro g hgl
            cases g with
            | base j => rw [wakeIn_base, wakeIn_base]
            | shared i => simp only [wakeIn]; rw [if_neg (fun h => hgl (by rw [h]))]
          by_cases hs : b.strong = 0
          · rw [if_pos hs] at hg
            exact hw g hg (by rw [hsame g hgl]; exact hwk)
          · rw [if_neg hs] at hg
            simp only [add] at hg
            by_cases hrg : 0 < r g
            · exact hw g hrg (by rw [hsame g hgl]; exact hwk)
            · have hgu : g = b.under := by
                by_cases h : g = b.under
                · exact h
                · simp [h] at hg; omega
              subst hgu
              refine hw (.shared bs.length) (by rw [h1]; omega) ?_
              simp only [wakeIn, if_true, hs, if_false]
              exact hwk
  refine key p.mem.blocks _ h.ok h.bounded fun g hg hw => ?_
  obtain ⟨v, hv⟩ := List.getElem?_of_mem (List.count_pos_iff.mp hg)
  obtain ⟨k', hk', ht⟩ := h.task hv
  rw [hw] at ht
  cases ht
  exact hk (List.mem_of_getElem? hk')

/-- A history with two boundaries: task 7's waker is exposed twice over, cloned (two blocks), the clone is cloned, woken and dropped, the executor's own waker is dropped
first, and the remaining clones are consumed. -/
def history : List Op := [.new 7, .new 8, .clone 0 [0, 0], .clone 2 [], .drop 0, .wakeByRef 3 [0], .wake 2, .wakeByRef 1 [], .clone 3 [0], .drop 3, .wake 4]

/-- The hypotheses are met, and the tasks woken are as expected; the wakers of task 7 are all gone, that of task 8 is alive. -/
example : (∀ o ∈ history, DefaultAlloc o) ∧ (Spec.run ⟨[], []⟩ history) = ⟨[none, some 8, none, none, none], [7, 7, 8, 7]⟩ ∧
    (Prog.init.run history).map (fun p => (p.mem.woken, p.mem.insts)) = some ([7, 7, 8, 7], [⟨7, false⟩, ⟨8, true⟩, ⟨7, false⟩]) :=
  ⟨by intro o ho; simp [history] at ho; rcases ho with rfl | rfl | rfl | rfl | rfl | rfl | rfl | rfl | rfl | rfl | rfl <;> simp [DefaultAlloc], rfl, rfl⟩

/-- **C41** refuted for a `StableWaker` with an allocator that is not the default one (`with_waker` is offered for every allocator): the block of its clone is released
with the default allocator. -/
theorem C41_other_allocator_refuted : ∃ os, Prog.init.run os = none := ⟨[.new 7, .clone 0 [1], .drop 1], rfl⟩

end Verif.Props.Waker
