import Verif.Sync.Atomic

/-! Property C27. -/
namespace Verif.Props.Atomic
open Verif.Sync.Atomic

/-- Owners of allocation `i`: handles, and the cell. -/
def owners (c : Cfg) (i : Nat) : Nat := c.owns i + uses c.cell i

/-- The counter of an allocation with this number of owners; allocations without owners are released. -/
def counter : Nat → Option Nat
  | 0 => none
  | n + 1 => some (n + 1)

/-- Every allocation is owned by as many owners as its counter says, and released once nobody owns it. -/
def Exact (c : Cfg) : Prop := ∀ i, c.strong i = counter (owners c i)

/-- Restrictions: `store` only into an empty cell; a `compare_exchange` that fails has no value to store; the cell's value is replaced
by `compare_exchange` only when no other call has read its pointer without having counted itself. -/
def Polite (c : Cfg) : Act → Prop
  | .store _ => c.cell = none
  | .cas cur new => if c.cell = cur then ∀ i, c.loading i = 0 else new = none
  | _ => True

def PoliteRun (c : Cfg) : List Act → Prop
  | [] => True
  | a :: as => can c a ∧ Polite c a ∧ ∀ c', step c a = some c' → PoliteRun c' as

structure Inv (c : Cfg) : Prop where
  exact : Exact c
  load : ∀ i, 0 < c.loading i → c.cell = some i
  fresh : ∀ i, c.made ≤ i → owners c i = 0
  dead : c.alive = false → c.cell = none

theorem inv_new : Inv Cfg.new :=
  ⟨fun _ => rfl, fun i h => by simp [Cfg.new] at h, fun _ _ => rfl, fun _ => rfl⟩

theorem counter_pos {n : Nat} (h : 0 < n) : counter n = some n := by
  cases n with
  | zero => omega
  | succ n => rfl

theorem release_eq {c : Cfg} {i n : Nat} (h : c.strong i = some n) (hn : 0 < n) :
    release c i = some { c with strong := upd c.strong i (counter (n - 1)) } := by
  by_cases h1 : n = 1
  · subst h1; simp [release, h, counter]
  · simp [release, h, h1, counter_pos (n := n - 1) (by omega)]

theorem exact_upd {c c' : Cfg} {i k : Nat} (he : Exact c) (hs : c'.strong = upd c.strong i (counter k))
    (ho : ∀ j, owners c' j = if j = i then k else owners c j) : Exact c' := by
  intro j
  rw [hs, ho j]
  by_cases hj : j = i
  · simp [upd, hj]
  · simp [upd, hj, he j]

theorem fresh_upd {c c' : Cfg} {i k : Nat} (hf : ∀ j, c.made ≤ j → owners c j = 0) (hi : 0 < owners c i) (hm : c'.made = c.made)
    (ho : ∀ j, owners c' j = if j = i then k else owners c j) : ∀ j, c'.made ≤ j → owners c' j = 0 := by
  intro j hj
  have := hf j (by omega)
  rw [ho j, if_neg (by intro e; subst e; omega)]; exact this

theorem owners_upd {c c' : Cfg} {i x : Nat} (h : c'.owns = upd c.owns i x) (h' : c'.cell = c.cell) (j : Nat) :
    owners c' j = if j = i then x + uses c.cell i else owners c j := by
  unfold owners
  rw [h, h']
  by_cases hj : j = i <;> simp [upd, hj]

theorem step_inv {c : Cfg} {a : Act} (h : Inv c) (hc : can c a) (hp : Polite c a) : ∃ c', step c a = some c' ∧ Inv c' := by
  obtain ⟨he, hl, hf, hd⟩ := h
  have hsome : ∀ i, 0 < owners c i → c.strong i = some (owners c i) := fun i hi => by rw [he i, counter_pos hi]
  cases a with
  | mk =>
    have h0 := hf c.made (Nat.le_refl _)
    have ho := owners_upd (c := c) (c' := { c with strong := upd c.strong c.made (some 1), owns := upd c.owns c.made 1, made := c.made + 1 }) rfl rfl
    have hu : uses c.cell c.made = 0 := by unfold owners at h0; omega
    rw [hu] at ho
    refine ⟨_, rfl, exact_upd he rfl ho, hl, fun i hi => ?_, hd⟩
    rw [ho i, if_neg (by simp at hi; omega)]
    exact hf i (by simp at hi; omega)
  | clone i =>
    have ho : 0 < owners c i := by have : 0 < c.owns i := hc; unfold owners; omega
    have hu := owners_upd (c := c) (c' := { c with strong := upd c.strong i (some (owners c i + 1)), owns := upd c.owns i (c.owns i + 1) }) rfl rfl
    rw [show c.owns i + 1 + uses c.cell i = owners c i + 1 by unfold owners; omega] at hu
    exact ⟨_, by simp only [step, hsome i ho], exact_upd he rfl hu, hl, fresh_upd hf ho rfl hu, hd⟩
  | drop i =>
    have hi : 0 < c.owns i := hc
    have ho : 0 < owners c i := by unfold owners; omega
    have hu := owners_upd (c := c) (c' := { c with strong := upd c.strong i (counter (owners c i - 1)), owns := upd c.owns i (c.owns i - 1) }) rfl rfl
    rw [show c.owns i - 1 + uses c.cell i = owners c i - 1 by unfold owners; omega] at hu
    exact ⟨_, release_eq (c := { c with owns := upd c.owns i (c.owns i - 1) }) (hsome i ho) ho, exact_upd he rfl hu, hl, fresh_upd hf ho rfl hu, hd⟩
  | loadPtr =>
    cases hcell : c.cell with
    | none => exact ⟨c, by simp [step, hcell], he, hl, hf, hd⟩
    | some i =>
      refine ⟨{ c with loading := upd c.loading i (c.loading i + 1) }, by simp only [step, hcell], he, fun j hj => ?_, hf, hd⟩
      simp only [upd] at hj
      split at hj
      · next e => subst e; exact hcell
      · exact hl j hj
  | loadInc i =>
    have hi : 0 < c.loading i := hc
    have hcell := hl i hi
    have ho : 0 < owners c i := by simp [owners, uses, hcell]
    have hu := owners_upd (c := c) (c' := { c with strong := upd c.strong i (some (owners c i + 1)), owns := upd c.owns i (c.owns i + 1), loading := upd c.loading i (c.loading i - 1) }) rfl rfl
    rw [show c.owns i + 1 + uses c.cell i = owners c i + 1 by unfold owners; omega] at hu
    refine ⟨_, by simp only [step, hsome i ho], exact_upd he rfl hu, fun j hj => ?_, fresh_upd hf ho rfl hu, hd⟩
    simp only [upd] at hj
    split at hj
    · next e => subst e; exact hcell
    · exact hl j hj
  | store v =>
    obtain ⟨h1, h2⟩ := hc
    have hcell : c.cell = none := hp
    have hnl : ∀ i, ¬ 0 < c.loading i := fun i hi => by rw [hl i hi] at hcell; cases hcell
    have hown : ∀ i, owners { take c v with cell := v } i = owners c i := by
      intro i
      have := h2 i
      cases v with
      | none => simp [owners, take, uses, hcell]
      | some j =>
        by_cases hij : i = j
        · subst hij; simp only [owners, take, uses, upd, hcell] at *; simp at *; omega
        · simp [owners, take, uses, upd, hcell, hij, Ne.symm hij]
    refine ⟨_, rfl, fun i => ?_, fun i hi => ?_, fun i hi => ?_, fun hx => ?_⟩
    · rw [hown i, ← he i]; cases v <;> rfl
    · exact absurd (by cases v <;> exact hi) (hnl i)
    · rw [hown i]; exact hf i (by cases v <;> exact hi)
    · have : c.alive = false := by cases v <;> exact hx
      rw [h1] at this; cases this
  | cas cur new =>
    obtain ⟨h1, h2⟩ := hc
    by_cases hq : c.cell = cur
    · have hnl : ∀ i, c.loading i = 0 := by simpa [Polite, hq] using hp
      refine ⟨give { take c new with cell := new } cur, by simp [step, hq], ?_⟩
      have hown : ∀ i, owners (give { take c new with cell := new } cur) i = owners c i := by
        intro i
        have h3 := h2 i
        cases cur with
        | none =>
          cases new with
          | none => simp [owners, give, take, uses, hq]
          | some n =>
            by_cases hi : i = n
            · subst hi; simp [owners, give, take, uses, upd, hq] at *; omega
            · simp [owners, give, take, uses, upd, hq, hi, Ne.symm hi]
        | some k =>
          cases new with
          | none =>
            by_cases hi : i = k
            · subst hi; simp [owners, give, take, uses, upd, hq]
            · simp [owners, give, take, uses, upd, hq, hi, Ne.symm hi]
          | some n =>
            by_cases hi : i = k <;> by_cases hj : i = n
            · subst hi hj; simp [owners, give, take, uses, upd, hq] at *; omega
            · subst hi; simp [owners, give, take, uses, upd, hq, hj, Ne.symm hj]
            · subst hj; simp [owners, give, take, uses, upd, hq, hi, Ne.symm hi] at *; omega
            · simp [owners, give, take, uses, upd, hq, hi, hj, Ne.symm hi, Ne.symm hj]
      have hld : (give { take c new with cell := new } cur).loading = c.loading := by cases cur <;> cases new <;> rfl
      have hst : (give { take c new with cell := new } cur).strong = c.strong := by cases cur <;> cases new <;> rfl
      have hmd : (give { take c new with cell := new } cur).made = c.made := by cases cur <;> cases new <;> rfl
      have hal : (give { take c new with cell := new } cur).alive = c.alive := by cases cur <;> cases new <;> rfl
      refine ⟨fun i => ?_, fun i hi => ?_, fun i hi => ?_, fun hx => ?_⟩
      · rw [hown i, hst, ← he i]
      · rw [hld, hnl i] at hi; omega
      · rw [hmd] at hi; rw [hown i]; exact hf i hi
      · rw [hal, h1] at hx; cases hx
    · have hn : new = none := by simpa [Polite, hq] using hp
      subst hn
      cases hcell : c.cell with
      | none => exact ⟨c, by rw [hcell] at hq; simp [step, hcell, hq, take], he, hl, hf, hd⟩
      | some i =>
        refine ⟨{ c with loading := upd c.loading i (c.loading i + 1) }, by rw [hcell] at hq; simp only [step, hcell, take]; rw [if_neg hq], he, fun j hj => ?_, hf, hd⟩
        simp only [upd] at hj
        split at hj
        · next e => subst e; exact hcell
        · exact hl j hj
  | dropCell =>
    obtain ⟨h1, h2⟩ := hc
    cases hcell : c.cell with
    | none => exact ⟨{ c with alive := false }, by simp only [step, hcell], he, hl, hf, fun _ => hcell⟩
    | some i =>
      have ho : 0 < owners c i := by simp [owners, uses, hcell]
      have hu : ∀ j, owners { c with cell := none, alive := false, strong := upd c.strong i (counter (owners c i - 1)) } j =
          if j = i then owners c i - 1 else owners c j := by
        intro j
        by_cases hj : j = i
        · subst hj; simp [owners, uses, hcell]
        · simp [owners, uses, hcell, hj, Ne.symm hj]
      refine ⟨{ c with cell := none, alive := false, strong := upd c.strong i (counter (owners c i - 1)) }, ?_, exact_upd he rfl hu, fun j hj => ?_, fresh_upd hf ho rfl hu, fun _ => rfl⟩
      · simp only [step, hcell]; exact release_eq (c := { c with cell := none, alive := false }) (hsome i ho) ho
      · have hj : 0 < c.loading j := hj
        rw [h2 j] at hj; omega

/-- In every polite interleaving of any number of threads no counter of released memory is accessed, and at each point every allocation
has exactly as many owners as its counter says; those without owners have been released.  What is missing from C27: `store` into a cell that is not
empty, a failing `compare_exchange` with a value, and replacing concurrently with loading; all three are refuted below. -/
theorem C27_history_partial (as : List Act) (hp : PoliteRun Cfg.new as) : ∃ c, run Cfg.new as = some c ∧ Exact c := by
  have key : ∀ (as : List Act) (c : Cfg), Inv c → PoliteRun c as → ∃ c', run c as = some c' ∧ Inv c' := by
    intro as
    induction as with
    | nil => intro c h _; exact ⟨c, rfl, h⟩
    | cons a as ih =>
      intro c h ⟨h1, h2, h3⟩
      obtain ⟨c1, e1, i1⟩ := step_inv h h1 h2
      obtain ⟨c2, e2, i2⟩ := ih c1 i1 (h3 c1 e1)
      exact ⟨c2, by simp [run, e1, e2], i2⟩
  obtain ⟨c, h1, h2⟩ := key as _ inv_new hp
  exact ⟨c, h1, h2.exact⟩

/-- Two allocations are exchanged through the cell while it is loaded. -/
example : PoliteRun Cfg.new [.mk, .mk, .clone 0, .store (some 0), .loadPtr, .loadInc 0, .clone 0, .cas (some 0) (some 1), .drop 0, .cas none none, .loadInc 1, .dropCell] := by
  simp [PoliteRun, Polite, can, step, Cfg.new, upd, uses, take, give, release]
  refine ⟨fun i => ?_, fun i => ?_, fun i => ?_⟩ <;> grind

/-- `store` forgets what the cell owned. -/
theorem C27_store_refuted : ∃ c, Possible Cfg.new [.mk, .store (some 0), .store none] ∧ run Cfg.new [.mk, .store (some 0), .store none] = some c ∧
    owners c 0 = 0 ∧ c.strong 0 = some 1 := by
  refine ⟨_, ?_, rfl, ?_, ?_⟩
  · simp [Possible, can, step, Cfg.new, upd, uses, take]
    intro i; grind
  · rfl
  · rfl

/-- A `compare_exchange` that fails forgets the value it was given. -/
theorem C27_failed_exchange_refuted : ∃ c, Possible Cfg.new [.mk, .clone 0, .cas (some 0) (some 0)] ∧
    run Cfg.new [.mk, .clone 0, .cas (some 0) (some 0)] = some c ∧ owners c 0 = 1 ∧ c.strong 0 = some 2 := by
  refine ⟨_, ?_, rfl, ?_, ?_⟩
  · simp [Possible, can, step, Cfg.new, upd, uses, take]
    intro i; grind
  · rfl
  · rfl

/-- A thread loads the pointer; another replaces it and drops the old value; the first increments a counter in released memory. -/
def loadRace : List Act := [.mk, .clone 0, .store (some 0), .loadPtr, .cas (some 0) none, .drop 0, .drop 0, .loadInc 0]

theorem C27_load_race_refuted : Possible Cfg.new loadRace ∧ run Cfg.new loadRace = none := by
  refine ⟨?_, rfl⟩
  simp [loadRace, Possible, can, step, Cfg.new, upd, uses, take, give, release]
  grind

end Verif.Props.Atomic
