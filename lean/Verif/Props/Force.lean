import Verif.Sync.Force
import Verif.Props.Arc

/-! C82: slices that are brought back by `WeakSlice::force_upgrade`. -/
namespace Verif.Props.Force
open Verif.Sync (TOP W incr decr orTop clearTop)
open Verif.Sync.Force
open Verif.Props.Arc (top_eq w_eq incr_eq decr_eq orTop_eq clearTop_eq)

/-- Strong handles, and calls that hold a unit of the strong counter. -/
def strongs (c : Cfg) : Nat := c.arcs + c.anding + c.forcing

/-- Restrictions on the schedule: neither `upgrade` nor `force_upgrade` starts while an `upgrade` is in flight; less than 2^62 handles exist. -/
def Polite (c : Cfg) (a : Act) : Prop :=
  (a = .upLoad ∨ a = .forceStrong → c.upgrading = 0) ∧ strongs c + c.weaks + c.unweaking < 4611686018427387904

structure Inv (c : Cfg) : Prop where
  one : c.upgrading ≤ 1
  calm : c.upgrading = 0 → c.strong = strongs c
  up : c.adding + c.anding = 1 → c.strong = strongs c + TOP
  fail : c.failing = 1 → c.strong = TOP ∧ strongs c = 0
  forcing : c.forcing ≤ 1
  borrow : 0 < c.upgrading + c.forcing → 0 < c.weaks
  weak : 0 < strongs c + c.adding → c.weak + c.forcing = c.weaks + c.unweaking + 1
  weak' : strongs c + c.adding = 0 → c.weak = c.weaks + c.unweaking
  freed : c.freed = true → c.released = 1
  unfreed : c.freed = false → c.released = 0
  free : c.weaks + c.unweaking + strongs c + c.adding = 0 → c.freeing + c.released = 1
  unfree : 0 < c.weaks + c.unweaking + strongs c + c.adding → c.freeing + c.released = 0

attribute [local irreducible] incr decr W TOP

theorem inv_new : Inv Cfg.new := by
  constructor <;> simp [Cfg.new, strongs, Cfg.upgrading]

local macro "inv" : tactic => `(tactic| (constructor <;> simp [strongs, Cfg.upgrading] <;> omega))

theorem step_inv {c : Cfg} {a : Act} (h : Inv c) (hc : can c a = true) (hp : Polite c a) : ∃ c', step c a = some c' ∧ Inv c' := by
  have tw := w_eq
  have tt := top_eq
  obtain ⟨p1, p2⟩ := hp
  obtain ⟨strong, weak, freed, released, arcs, weaks, adding, anding, failing, forcing, unweaking, freeing⟩ := c
  obtain ⟨h1, h2, h3, h4, h5, h6, h7, h7', h8, h8', h9, h9'⟩ := h
  simp only [strongs, Cfg.upgrading] at *
  have hf : freed = false := by
    cases freed
    · rfl
    · have := h8 rfl
      cases a <;> simp [can, Cfg.upgrading] at hc <;> (try split at hc) <;> omega
  subst hf
  have h8 := h8' rfl
  subst h8
  clear h8'
  cases a <;> simp [can, step, subWeak, Cfg.upgrading] at hc p1 ⊢
  case read => inv
  case clone => rw [incr_eq (by omega)]; inv
  case dropArc =>
    rw [decr_eq (by omega) (by omega)]
    by_cases hq : strong = 1
    · rw [if_pos hq]; inv
    · rw [if_neg hq]; inv
  case unweak =>
    rw [decr_eq (by omega) (by omega)]
    by_cases hq : weak = 1
    · rw [if_pos hq]; inv
    · rw [if_neg hq]; inv
  case downgrade => rw [incr_eq (by omega)]; inv
  case cloneWeak => rw [incr_eq (by omega)]; inv
  case dropWeak =>
    rw [decr_eq (by split at hc <;> omega) (by omega)]
    by_cases hq : weak = 1
    · rw [if_pos hq]; split at hc <;> inv
    · rw [if_neg hq]; split at hc <;> inv
  case free => inv
  case upLoad =>
    rw [orTop_eq, if_pos (by omega : strong < TOP)]
    by_cases hq : strong = 0
    · rw [if_pos (.inl hq)]; simp; inv
    · rw [if_neg (by omega)]; simp; inv
  case upAdd => rw [incr_eq (by omega)]; inv
  case upAnd => rw [clearTop_eq, if_neg (by omega)]; inv
  case upStore => inv
  case forceStrong =>
    rw [incr_eq (by omega)]
    by_cases hq : strong = 0
    · rw [if_pos (.inl hq)]; simp; inv
    · rw [if_neg (by omega)]; simp; inv
  case forceWeak => rw [incr_eq (by omega)]; inv

/-- An interleaving that safe programs can show, all of whose steps are polite. -/
def PoliteRun (c : Cfg) : List Act → Prop
  | [] => True
  | a :: as => can c a = true ∧ Polite c a ∧ ∀ c', step c a = some c' → PoliteRun c' as

theorem run_inv : ∀ (as : List Act) {c : Cfg}, Inv c → PoliteRun c as → ∃ c', run c as = some c' ∧ Inv c'
  | [], c, h, _ => ⟨c, rfl, h⟩
  | a :: as, c, h, hp => by
    obtain ⟨h1, h2, h3⟩ := hp
    obtain ⟨c1, e1, i1⟩ := step_inv h h1 h2
    obtain ⟨c2, e2, i2⟩ := run_inv as i1 (h3 c1 e1)
    exact ⟨c2, by simp [run, e1, e2], i2⟩

/-- No operation is in progress. -/
def Idle (c : Cfg) : Prop := c.adding = 0 ∧ c.anding = 0 ∧ c.failing = 0 ∧ c.forcing = 0 ∧ c.unweaking = 0 ∧ c.freeing = 0

/-- In every polite interleaving of any number of threads no released memory is used; the allocation is released at most once, never while a
handle exists, and once all operations have returned, it has been released if no handle is left.  What is missing from C82: schedules that are not
polite, see `C82_use_after_free_refuted` and `C82_leak_refuted`. -/
theorem C82_interleavings_partial (as : List Act) (hp : PoliteRun Cfg.new as) :
    ∃ c, run Cfg.new as = some c ∧ c.released ≤ 1 ∧ (c.freed = true ↔ c.released = 1) ∧
      (0 < c.arcs + c.weaks → c.freed = false) ∧
      (Idle c → c.arcs = 0 → c.weaks = 0 → c.released = 1) := by
  obtain ⟨c, e, h1, h2, h3, h4, h5, h6, h7, h7', h8, h8', h9, h9'⟩ := run_inv as inv_new hp
  refine ⟨c, e, ?_⟩
  simp only [Idle, strongs, Cfg.upgrading] at *
  cases hf : c.freed
  · have := h8' hf
    simp; omega
  · have := h8 hf
    simp; omega

/-- Once all operations of a polite interleaving have returned, the strong counter counts the strong handles, and the weak counter counts the weak
ones and one for all strong ones together, unless everything is released already. -/
theorem C82_counts_partial (as : List Act) (hp : PoliteRun Cfg.new as) :
    ∃ c, run Cfg.new as = some c ∧
      (Idle c → c.strong = c.arcs ∧ (0 < c.arcs → c.weak = c.weaks + 1) ∧ (c.arcs = 0 → c.weak = c.weaks)) := by
  obtain ⟨c, e, h1, h2, h3, h4, h5, h6, h7, h7', h8, h8', h9, h9'⟩ := run_inv as inv_new hp
  refine ⟨c, e, ?_⟩
  simp only [Idle, strongs, Cfg.upgrading] at *
  omega

/-- Wherever it is polite to call `force_upgrade`, it succeeds: its first step either yields the strong handle right away, exactly if another strong
handle or call of `force_upgrade` keeps the slice alive, or else its second step does, which only adds to the weak counter; afterwards the slice can
be read. -/
theorem C82_force_partial (as : List Act) (hp : PoliteRun Cfg.new as) :
    ∃ c, run Cfg.new as = some c ∧
      (can c .forceStrong = true → Polite c .forceStrong →
        (0 < strongs c → ∃ c', step c .forceStrong = some c' ∧ c'.arcs = c.arcs + 1 ∧ c'.strong = c.strong + 1 ∧ c'.weak = c.weak ∧
          c'.weaks = c.weaks ∧ run c' [.read] = some c') ∧
        (strongs c = 0 → ∃ c' c'', step c .forceStrong = some c' ∧ step c' .forceWeak = some c'' ∧ c''.arcs = 1 ∧ c''.strong = 1 ∧
          c''.weak = c.weak + 1 ∧ c''.weaks = c.weaks ∧ run c'' [.read] = some c'')) := by
  obtain ⟨c, e, h⟩ := run_inv as inv_new hp
  refine ⟨c, e, fun hc hp' => ?_⟩
  have tw := w_eq
  have tt := top_eq
  obtain ⟨c1, e1, h1⟩ := step_inv h hc hp'
  obtain ⟨p1, p2⟩ := hp'
  have p1 := p1 (.inr rfl)
  have hs := h.calm p1
  simp only [can, decide_eq_true_eq] at hc
  have hf : c.freed = false := by
    cases hf : c.freed
    · rfl
    · have := h.freed hf
      have := h.unfree (by omega)
      omega
  have hw : c.weak + 1 < W := by
    have := h.weak
    have := h.weak'
    simp only [strongs, Cfg.upgrading] at *
    omega
  constructor
  · intro hq
    have : ¬ (c.strong = 0 ∨ c.strong = TOP) := by omega
    refine ⟨{ c with strong := incr c.strong, arcs := c.arcs + 1 }, by simp [step, hf, this], rfl, incr_eq (by omega), rfl, rfl, ?_⟩
    simp [run, step, hf]
  · intro hq
    have : c.strong = 0 ∨ c.strong = TOP := by omega
    refine ⟨{ c with strong := incr c.strong, forcing := c.forcing + 1 },
      { c with strong := incr c.strong, weak := incr c.weak, arcs := c.arcs + 1 },
      by simp [step, hf, this], by simp [step, hf], ?_, ?_, incr_eq hw, rfl, ?_⟩
    · simp only [strongs] at hq
      show c.arcs + 1 = 1
      omega
    · show incr c.strong = 1
      rw [incr_eq (by omega)]; omega
    · simp [run, step, hf]

/-- What safe programs can do: operations on handles need a handle, and the last weak handle isn't dropped while it is borrowed; calls in flight
can always go on. -/
theorem C82_may (c : Cfg) :
    (∀ a ∈ [Act.read, .clone, .dropArc, .downgrade], can c a = true ↔ c.arcs ≠ 0) ∧
    (∀ a ∈ [Act.cloneWeak, .upLoad, .forceStrong], can c a = true ↔ c.weaks ≠ 0) ∧
    (can c .dropWeak = true ↔ c.weaks ≠ 0 ∧ (c.weaks = 1 → c.adding = 0 ∧ c.anding = 0 ∧ c.failing = 0 ∧ c.forcing = 0)) ∧
    (can c .unweak = true ↔ c.unweaking ≠ 0) ∧ (can c .free = true ↔ c.freeing ≠ 0) ∧ (can c .upAdd = true ↔ c.adding ≠ 0) ∧
    (can c .upAnd = true ↔ c.anding ≠ 0) ∧ (can c .upStore = true ↔ c.failing ≠ 0) ∧ (can c .forceWeak = true ↔ c.forcing ≠ 0) := by
  refine ⟨?_, ?_, ?_, ?_⟩
  · simp [can]; omega
  · simp [can]; omega
  · simp only [can, Cfg.upgrading]
    by_cases h : c.adding + c.anding + c.failing + c.forcing = 0
    · simp only [h, if_true, decide_eq_true_eq]; omega
    · simp only [h, if_false, decide_eq_true_eq]; omega
  · simp [can]; omega

/-- An interleaving is one of safe programs if each of its actions may be done after those before it, none of which is an error. -/
theorem C82_possible (c : Cfg) (as : List Act) :
    possible c as = true ↔ ∀ pre a post, as = pre ++ a :: post → ∃ c', run c pre = some c' ∧ can c' a = true := by
  induction as generalizing c with
  | nil => simp [possible]
  | cons a as ih =>
    rw [possible, Bool.and_eq_true]
    constructor
    · rintro ⟨h1, h2⟩ pre b post he
      cases pre with
      | nil =>
        cases he
        exact ⟨c, rfl, h1⟩
      | cons x pre =>
        cases he
        cases hs : step c a with
        | none =>
          rw [hs] at h2
          simp at h2
        | some c1 =>
          rw [hs] at h2
          obtain ⟨c', h3, h4⟩ := (ih c1).1 h2 pre b post rfl
          exact ⟨c', by simpa [run, hs] using h3, h4⟩
    · intro h
      obtain ⟨c', h1, h2⟩ := h [] a as rfl
      cases h1
      refine ⟨h2, ?_⟩
      cases hs : step c a with
      | none =>
        cases as with
        | nil => rfl
        | cons b as =>
          obtain ⟨c', h3, -⟩ := h [a] b as rfl
          simp [run, hs] at h3
      | some c1 =>
        refine (ih c1).2 fun pre b post he => ?_
        obtain ⟨c', h3, h4⟩ := h (a :: pre) b post (by rw [he]; rfl)
        exact ⟨c', by simpa [run, hs] using h3, h4⟩

/-- A slice without strong handles is brought back by two threads, while a third drops its handle. -/
def revived : List Act :=
  [.downgrade, .cloneWeak, .dropArc, .forceStrong, .unweak, .forceStrong, .read, .forceWeak, .dropArc, .dropWeak, .upLoad, .upAdd, .upAnd, .dropArc,
    .dropWeak, .read, .dropArc, .unweak, .free]

unseal incr decr in
example : PoliteRun Cfg.new revived ∧ possible Cfg.new revived = true := by
  constructor
  · simp [revived, PoliteRun, Polite, Cfg.new, can, step, strongs, Cfg.upgrading, orTop, clearTop, incr, decr, subWeak, top_eq, w_eq]
  · decide +kernel

/-- Safe programs can use released memory: thread A's `upgrade` finds no strong handle, thread B's `force_upgrade` makes one, then A's `store(0)`
erases B's unit from the counter.  The clone and drop of another handle then end the slice although B's handle is still there, and dropping the weak
handle releases it. -/
theorem C82_use_after_free_refuted : ∃ as, possible Cfg.new as = true ∧ run Cfg.new as = none ∧
    (∀ c, run Cfg.new as.dropLast = some c → 0 < c.arcs ∧ c.freed = true) :=
  ⟨[.downgrade, .dropArc, .unweak, .upLoad, .forceStrong, .forceWeak, .upStore, .clone, .dropArc, .unweak, .dropWeak, .free, .read],
    by decide +kernel, by decide +kernel, by
      intro c h
      have : run Cfg.new ([.downgrade, .dropArc, .unweak, .upLoad, .forceStrong, .forceWeak, .upStore, .clone, .dropArc, .unweak, .dropWeak, .free, .read] : List Act).dropLast
          = some ⟨0, 0, true, 1, 1, 0, 0, 0, 0, 0, 0, 0⟩ := by decide +kernel
      rw [this] at h
      cases h
      decide⟩

/-- Safe programs can lose the memory of a slice for good: after thread A's `upgrade` has announced itself, the last strong handle is dropped, so
that thread B's `force_upgrade` reads the announcement alone and adds to the weak counter a unit that the slice still has. -/
theorem C82_leak_refuted : ∃ as c, possible Cfg.new as = true ∧ run Cfg.new as = some c ∧ Idle c ∧ c.arcs = 0 ∧ c.weaks = 0 ∧
    c.released = 0 ∧ ∀ a, can c a = false :=
  ⟨[.downgrade, .upLoad, .dropArc, .forceStrong, .forceWeak, .upAdd, .upAnd, .dropArc, .dropArc, .unweak, .dropWeak],
    ⟨0, 1, false, 0, 0, 0, 0, 0, 0, 0, 0, 0⟩, by decide +kernel, by decide +kernel, by simp [Idle], rfl, rfl, rfl,
    by intro a; cases a <;> decide⟩

end Verif.Props.Force
