import Verif.Sync.Model

/-! Properties C22, C23 and C24. -/
namespace Verif.Props.Arc
open Verif.Sync

/-- A strong handle exists: at rest or exclusively borrowed. -/
def strongs (c : Cfg) : Nat := c.arcs + c.checking + c.exclusive

/-- The value is, or is about to be, destroyed. -/
def ending (c : Cfg) : Prop := c.value = false ∨ 0 < c.destroying

/-- Restrictions on the schedule:
* an upgrade does not start while another is in flight, unless a strong handle exists or the value's end has begun;
* the last strong handle is neither dropped nor exclusively borrowed while an upgrade that overlapped another is in flight;
* no upgrade starts between the two loads of a uniqueness check;
* less than 2^62 handles exist. -/
def Polite (c : Cfg) (a : Act) : Prop :=
  (a = .upLoad → (c.upgrading = 0 ∨ 0 < c.arcs ∨ ending c) ∧ c.checking = 0) ∧
  (a = .dropArc ∨ a = .loadStrong → c.overlapped = true → 1 < c.arcs) ∧
  strongs c + c.weaks + c.upgrading < 4611686018427387904

structure Live (c : Cfg) : Prop where
  value : c.value = true
  freed : c.freed = false
  zero : c.destroying = 0 ∧ c.unweaking = 0 ∧ c.freeing = 0 ∧ c.destroyed = 0 ∧ c.released = 0 ∧ c.failing = 0
  strong : c.strong = strongs c + c.anding ∨ c.strong = strongs c + c.anding + TOP
  calm : c.adding + c.anding = 0 → c.strong = strongs c ∧ c.overlapped = false ∧ 0 < c.strong
  alone : c.overlapped = false → c.adding + c.anding ≤ 1 ∧ (c.adding + c.anding = 1 → c.strong = strongs c + c.anding + TOP)
  crowd : c.overlapped = true → 0 < c.arcs
  excl : 0 < c.checking + c.exclusive → c.checking + c.exclusive = 1 ∧ c.arcs = 0 ∧ c.adding + c.anding = 0
  noweak : 0 < c.exclusive → c.weaks = 0
  weak : c.weak = c.weaks + 1
  borrow : 0 < c.adding + c.anding → 0 < c.weaks

structure Dead (c : Cfg) : Prop where
  none : c.arcs = 0 ∧ c.checking = 0 ∧ c.exclusive = 0 ∧ c.adding = 0 ∧ c.anding = 0
  value : c.value = true ↔ c.destroying = 1
  once : c.destroying + c.destroyed = 1
  released : c.released = if c.freed then 1 else 0
  strong : 0 < c.weaks → c.strong = 0 ∨ c.strong = TOP
  borrow : 0 < c.failing → 0 < c.weaks
  phase : (c.destroying + c.unweaking = 1 ∧ c.weak = c.weaks + 1 ∧ c.freed = false ∧ c.freeing = 0) ∨
    (c.destroying + c.unweaking = 0 ∧ c.weak = c.weaks ∧
      ((0 < c.weaks ∧ c.freed = false ∧ c.freeing = 0) ∨ (c.weaks = 0 ∧ c.freed = false ∧ c.freeing = 1) ∨
        (c.weaks = 0 ∧ c.freed = true ∧ c.freeing = 0)))

def Inv (c : Cfg) : Prop := Live c ∨ Dead c

theorem top_eq : TOP = 9223372036854775808 := by simp [TOP]
theorem w_eq : W = 18446744073709551616 := by simp [W]

theorem incr_eq {n : Nat} (h : n + 1 < W) : incr n = n + 1 := Nat.mod_eq_of_lt h
theorem decr_eq {n : Nat} (h : 0 < n) (h' : n < W) : decr n = n - 1 := by
  unfold decr
  rw [show n + (W - 1) = (n - 1) + W by omega, Nat.add_mod_right, Nat.mod_eq_of_lt (by omega)]

attribute [local irreducible] incr decr W TOP

theorem inv_new : Inv Cfg.new := by
  left
  constructor <;> simp [Cfg.new, strongs]

local macro "live" : tactic => `(tactic| (refine Or.inl ?_; constructor <;> simp [strongs] <;> omega))
local macro "dead" : tactic => `(tactic| (refine Or.inr ?_; constructor <;> simp [strongs] <;> omega))

theorem pos_true : ∀ {n : Nat}, 0 < n → positive n = true
  | _ + 1, _ => rfl
theorem pos_false : ∀ {n : Nat}, ¬ 0 < n → positive n = false
  | 0, _ => rfl
  | _ + 1, h => absurd (Nat.succ_pos _) h

theorem orTop_eq {n : Nat} : orTop n = if n < TOP then n + TOP else n := rfl
theorem clearTop_eq {n : Nat} : clearTop n = if n < TOP then n else n - TOP := rfl

theorem step_inv {c : Cfg} {a : Act} (h : Inv c) (hc : can c a = true) (hp : Polite c a) : ∃ c', step c a = some c' ∧ Inv c' := by
  have tw := w_eq
  have tt := top_eq
  obtain ⟨p1, p2, p3⟩ := hp
  obtain ⟨strong, weak, value, freed, destroyed, released, arcs, weaks, adding, anding, failing, destroying, unweaking, freeing, checking, exclusive, overlapped⟩ := c
  rcases h with h | h
  · obtain ⟨h1, h2, ⟨z1, z2, z3, z4, z5, z6⟩, h3, h4, h5, h6, h7, h8, h9, h10⟩ := h
    simp only [strongs, Cfg.upgrading, ending] at *
    subst h1 h2 z1 z2 z3 z4 z5 z6 h9
    have hs1 : strong + 1 < W := by omega
    have hw1 : weaks + 1 + 1 < W := by omega
    cases overlapped <;> simp at h4 h5 h6 p2 <;> cases a <;> simp [can, step, subWeak, upDone, Cfg.upgrading] at hc p1 p2 ⊢
    case false.read => live
    case false.write => live
    case true.read => live
    case true.write => live
    case false.clone => rw [incr_eq hs1]; live
    case true.clone => rw [incr_eq hs1]; live
    case false.dropArc =>
      rw [decr_eq (by omega) (by omega)]
      by_cases hq : strong = 1
      · rw [if_pos hq]; dead
      · rw [if_neg hq]; live
    case true.dropArc =>
      rw [decr_eq (by omega) (by omega)]
      by_cases hq : strong = 1
      · omega
      · rw [if_neg hq]; live
    case false.downgrade => rw [incr_eq hw1]; live
    case true.downgrade => rw [incr_eq hw1]; live
    case false.cloneWeak => rw [incr_eq hw1]; live
    case true.cloneWeak => rw [incr_eq hw1]; live
    case false.dropWeak =>
      rw [decr_eq (by omega) (by omega), if_neg (by split at hc <;> omega)]
      split at hc <;> live
    case true.dropWeak =>
      rw [decr_eq (by omega) (by omega), if_neg (by split at hc <;> omega)]
      split at hc <;> live
    case false.upLoad =>
      rw [if_neg (by omega), orTop_eq]
      simp
      by_cases hq : adding + anding = 0
      · rw [if_pos (by omega), pos_false (by omega)]; live
      · rw [if_neg (by omega), pos_true (by omega)]; live
    case true.upLoad =>
      rw [if_neg (by omega), orTop_eq]
      simp
      split <;> live
    case false.upAdd => rw [incr_eq hs1]; live
    case true.upAdd => rw [incr_eq hs1]; live
    case false.upAnd => rw [clearTop_eq, if_neg (by omega)]; live
    case true.upAnd =>
      by_cases hq : 0 < adding + (anding - 1)
      · rw [clearTop_eq, pos_true hq]
        split <;> live
      · rw [clearTop_eq, pos_false hq]
        split <;> live
    case false.loadStrong =>
      by_cases hq : strong = 1
      · rw [if_pos hq]; simp; live
      · rw [if_neg hq]; simp; live
    case true.loadStrong =>
      by_cases hq : strong = 1
      · omega
      · rw [if_neg hq]; simp; live
    case false.loadWeak =>
      by_cases hq : weaks = 0
      · rw [if_pos hq]; simp; live
      · rw [if_neg hq]; simp; live
    case true.loadWeak => omega
    case false.endAccess => live
    case true.endAccess => omega
    case false.intoInner => dead
    case true.intoInner => omega
  · obtain ⟨⟨n1, n2, n3, n4, n5⟩, h2, h3, h4, h5, h6, h7⟩ := h
    simp only [strongs, Cfg.upgrading, ending] at *
    subst n1 n2 n3 n4 n5
    cases freed <;> simp at h4 h7 <;> cases a <;> simp [can, step, subWeak, upDone, Cfg.upgrading] at hc p1 p2 ⊢
    case false.destroy =>
      obtain rfl : value = true := h2.2 (by omega)
      simp
      dead
    case false.unweak =>
      by_cases hq : weak = 1
      · rw [if_pos hq, decr_eq (by omega) (by omega)]; dead
      · rw [if_neg hq, decr_eq (by omega) (by omega)]; dead
    case false.cloneWeak => rw [incr_eq (by omega)]; dead
    case false.dropWeak =>
      split at hc
      all_goals
        by_cases hq : weak = 1
        · rw [if_pos hq, decr_eq (by omega) (by omega)]; dead
        · rw [if_neg hq, decr_eq (by omega) (by omega)]; dead
    case false.free => dead
    case false.upLoad =>
      rw [if_pos (by omega), orTop_eq]
      simp
      split <;> dead
    case false.upStore => dead
    case true.dropWeak => split at hc <;> omega
    all_goals omega

/-- Every step is one a safe program can take, and the schedule is polite. -/
def PoliteRun (c : Cfg) : List Act → Prop
  | [] => True
  | a :: as => can c a = true ∧ Polite c a ∧ ∀ c', step c a = some c' → PoliteRun c' as

theorem run_inv : ∀ (as : List Act) {c : Cfg}, Inv c → PoliteRun c as → ∃ c', run c as = some c' ∧ Inv c'
  | [], c, h, _ => ⟨c, rfl, h⟩
  | a :: as, c, h, hp => by
    obtain ⟨h1, h2, h3⟩ := hp
    obtain ⟨c1, e1, i1⟩ := step_inv h h1 h2
    obtain ⟨c2, e2, i2⟩ := run_inv as i1 (h3 c1 e1)
    exact ⟨c2, by simp [run, e1, e2], i2⟩

/-- No operation is in progress. -/
def Idle (c : Cfg) : Prop := c.upgrading = 0 ∧ c.destroying = 0 ∧ c.unweaking = 0 ∧ c.freeing = 0 ∧ c.checking = 0 ∧ c.exclusive = 0

/-- In every polite interleaving of any number of threads no undefined behaviour happens; the value is destroyed at most once and never
while a strong handle exists; the allocation is released at most once, never before the value was destroyed, and never while a handle exists; once
all operations have returned, the value has been destroyed if no strong handle is left, and the allocation released if no handle is left.
What is missing from C22: schedules that are not polite, see `C22_upgrade_refuted`. -/
theorem C22_interleavings_partial (as : List Act) (hp : PoliteRun Cfg.new as) :
    ∃ c, run Cfg.new as = some c ∧ c.destroyed ≤ 1 ∧ c.released ≤ 1 ∧
      (0 < strongs c → c.value = true ∧ c.destroyed = 0) ∧
      (0 < strongs c + c.weaks → c.freed = false) ∧
      (c.value = false ↔ c.destroyed = 1) ∧ (c.freed = true ↔ c.released = 1) ∧
      (c.freed = true → c.destroyed = 1) ∧
      (Idle c → strongs c = 0 → c.destroyed = 1) ∧
      (Idle c → strongs c = 0 → c.weaks = 0 → c.released = 1) := by
  obtain ⟨c, h1, h2⟩ := run_inv as inv_new hp
  refine ⟨c, h1, ?_⟩
  rcases h2 with h | h
  · obtain ⟨h1, h2, ⟨z1, z2, z3, z4, z5, z6⟩, h3, h4, h5, h6, h7, h8, h9, h10⟩ := h
    simp only [Idle, Cfg.upgrading, strongs] at *
    simp [h1, h2, z4, z5]
    omega
  · obtain ⟨⟨n1, n2, n3, n4, n5⟩, h2, h3, h4, h5, h6, h7⟩ := h
    simp only [Idle, Cfg.upgrading, strongs] at *
    have hv : c.value = false ↔ c.destroyed = 1 := by
      rw [← Bool.not_eq_true, h2]; omega
    cases hf : c.freed <;> simp [hf] at h4 h7 <;> simp [hv] <;> omega

/-- `upgrade` in polite interleavings: its first step decides, it fails exactly if no strong handle exists at this point; and when it
returns an `Arc`, the value has not been destroyed and the new handle counts.  What is missing from C23: schedules that are not polite, see
`C23_some_refuted` and `C23_none_refuted`. -/
theorem C23_upgrade_partial (as : List Act) (hp : PoliteRun Cfg.new as) :
    ∃ c, run Cfg.new as = some c ∧
      (∀ c', can c .upLoad = true → Polite c .upLoad → step c .upLoad = some c' →
        (strongs c = 0 → c'.failing = c.failing + 1 ∧ c'.adding = c.adding) ∧
        (0 < strongs c → c'.failing = c.failing ∧ c'.adding = c.adding + 1)) ∧
      (∀ c', can c .upAnd = true → Polite c .upAnd → step c .upAnd = some c' →
        c'.value = true ∧ c'.arcs = c.arcs + 1 ∧ (c'.strong = strongs c' ∨ 0 < c'.upgrading)) ∧
      (∀ c', can c .upStore = true → step c .upStore = some c' → strongs c = 0 ∧ c'.arcs = c.arcs) := by
  obtain ⟨c, h1, h2⟩ := run_inv as inv_new hp
  have tt := top_eq
  refine ⟨c, h1, fun c' hc hq hs => ?_, fun c' hc hq hs => ?_, fun c' hc hs => ?_⟩
  · rcases h2 with h | h
    · have hz := h.zero.2.2.2.2.2
      have h3 := h.strong
      have h7 := h.excl
      have h4 := h.calm
      have hv := h.value
      have hd := h.zero.1
      obtain ⟨q1, q2, q3⟩ := hq
      have q1 := q1 rfl
      simp only [step, h.freed, strongs, Cfg.upgrading, ending, hv, hd] at *
      have hns : ¬ (c.strong = 0 ∨ c.strong = TOP) := by
        rcases q1.1 with q | q | q
        · have := h4 (by omega); omega
        · omega
        · simp at q
      simp [hns] at hs
      subst hs
      simp
      have hex := h.alone
      by_cases hq : c.adding + c.anding = 0
      · have := h4 hq; omega
      · rcases q1.1 with q | q | q
        · omega
        · omega
        · simp at q
    · have hn := h.none
      have h5 := h.strong
      simp only [can, decide_eq_true_eq] at hc
      cases hf : c.freed with
      | true => simp [step, hf] at hs
      | false =>
        simp [step, hf, h5 hc] at hs
        subst hs
        simp [strongs, hn]
  · obtain ⟨c1, e1, i1⟩ := step_inv h2 hc hq
    rw [e1] at hs; cases hs
    rcases h2 with h | h
    · have hf := h.freed
      simp [step, hf, upDone] at e1
      refine ⟨by rw [← e1]; exact h.value, by rw [← e1], ?_⟩
      rcases i1 with h' | h'
      · by_cases hq : 0 < c'.upgrading
        · exact .inr hq
        · left
          refine (h'.calm ?_).1
          simp only [Cfg.upgrading] at hq; omega
      · have := h'.none.1
        rw [← e1] at this
        simp at this
    · have := h.none
      simp only [can, decide_eq_true_eq] at hc
      omega
  · rcases h2 with h | h
    · have := h.zero
      simp only [can, decide_eq_true_eq] at hc
      omega
    · have := h.none
      refine ⟨by simp [strongs, this], ?_⟩
      cases hf : c.freed <;> simp [step, hf, upDone] at hs
      subst hs
      rfl

/-- Exclusive access is exclusive throughout polite interleavings: as long as it lasts, no other handle exists and no operation
is in progress that would make one.  What is missing from C24: an upgrade between the two loads, see `C24_race_refuted`. -/
theorem C24_exclusive_partial (as : List Act) (hp : PoliteRun Cfg.new as) :
    ∃ c, run Cfg.new as = some c ∧ (0 < c.exclusive →
      c.exclusive = 1 ∧ c.arcs = 0 ∧ c.checking = 0 ∧ c.weaks = 0 ∧ c.upgrading = 0 ∧ c.value = true) := by
  obtain ⟨c, h1, h2⟩ := run_inv as inv_new hp
  refine ⟨c, h1, fun hx => ?_⟩
  rcases h2 with h | h
  · have h7 := h.excl
    have h8 := h.noweak hx
    have := h.zero.2.2.2.2.2
    have hv := h.value
    simp only [Cfg.upgrading]
    refine ⟨?_, ?_, ?_, h8, ?_, hv⟩ <;> omega
  · have := h.none; omega

/-- The restriction in simple terms: at most one upgrade is in flight at a time, none starts during a uniqueness check, and there are
less than 2^62 handles. -/
def SoloRun (c : Cfg) : List Act → Prop
  | [] => True
  | a :: as => can c a = true ∧ (a = .upLoad → c.upgrading = 0 ∧ c.checking = 0) ∧ strongs c + c.weaks + c.upgrading < 4611686018427387904 ∧
    ∀ c', step c a = some c' → SoloRun c' as

theorem solo_polite : ∀ (as : List Act) {c : Cfg}, c.overlapped = false → SoloRun c as → PoliteRun c as
  | [], _, _, _ => trivial
  | a :: as, c, ho, ⟨h1, h2, h3, h4⟩ => by
    refine ⟨h1, ⟨fun h => ⟨.inl (h2 h).1, (h2 h).2⟩, fun _ h => absurd (ho ▸ h) (by simp), h3⟩, fun c' hs => solo_polite as ?_ (h4 c' hs)⟩
    unfold step at hs
    split at hs
    · cases hs
    · cases a <;> simp only [subWeak, upDone] at hs <;> (try split at hs) <;> cases hs <;> simp [ho]
      all_goals simp [h2 rfl, positive]

/-- As `C22_interleavings_partial`, `C24_exclusive_partial`, for at most one upgrade at a time. -/
theorem C22_solo_partial (as : List Act) (hp : SoloRun Cfg.new as) :
    ∃ c, run Cfg.new as = some c ∧ c.destroyed ≤ 1 ∧ c.released ≤ 1 ∧ (0 < strongs c → c.value = true) ∧ (0 < strongs c + c.weaks → c.freed = false) ∧
      (Idle c → strongs c = 0 → c.destroyed = 1 ∧ (c.weaks = 0 → c.released = 1)) := by
  obtain ⟨c, h1, h2, h3, h4, h5, _, _, _, h6, h7⟩ := C22_interleavings_partial as (solo_polite as rfl hp)
  exact ⟨c, h1, h2, h3, fun h => (h4 h).1, h5, fun i s => ⟨h6 i s, h7 i s⟩⟩

/-- A polite history in which the last strong handle is dropped in the middle of an upgrade. -/
example : SoloRun Cfg.new [.downgrade, .upLoad, .dropArc, .upAdd, .upAnd, .dropArc, .destroy, .upLoad, .unweak, .upStore, .dropWeak, .free] := by
  simp [SoloRun, Cfg.new, can, step, strongs, Cfg.upgrading, orTop, clearTop, incr, decr, upDone, positive, subWeak, TOP, W]
example : run Cfg.new [.downgrade, .upLoad, .dropArc, .upAdd, .upAnd, .dropArc, .destroy, .upLoad, .unweak, .upStore, .dropWeak, .free] =
    some ⟨0, 0, false, true, 1, 1, 0, 0, 0, 0, 0, 0, 0, 0, 0, 0, false⟩ := by
  decide +kernel
/-- A polite history with overlapping upgrades. -/
example : PoliteRun Cfg.new [.downgrade, .upLoad, .upLoad, .upAdd, .upAnd, .dropArc, .upAdd, .upAnd] := by
  simp [PoliteRun, Polite, ending, Cfg.new, can, step, strongs, Cfg.upgrading, orTop, clearTop, incr, decr, upDone, positive, subWeak, TOP, W]
/-- A polite history with exclusive access. -/
example : SoloRun Cfg.new [.downgrade, .dropWeak, .loadStrong, .loadWeak, .write, .endAccess, .loadStrong, .loadWeak, .intoInner, .unweak, .free] := by
  simp [SoloRun, Cfg.new, can, step, strongs, Cfg.upgrading, orTop, clearTop, incr, decr, upDone, positive, subWeak, TOP, W]

/-- What a safe program may do: act on the handles that it has, one of which stays as long as an upgrade is in flight, and finish what it began. -/
theorem C22_may (c : Cfg) :
    (∀ a ∈ [Act.read, .clone, .dropArc, .downgrade, .loadStrong], can c a = true ↔ c.arcs ≠ 0) ∧
    (∀ a ∈ [Act.write, .endAccess, .intoInner], can c a = true ↔ c.exclusive ≠ 0) ∧
    (∀ a ∈ [Act.cloneWeak, .upLoad], can c a = true ↔ c.weaks ≠ 0) ∧
    (can c .dropWeak = true ↔ c.weaks ≠ 0 ∧ (c.weaks = 1 → c.adding = 0 ∧ c.anding = 0 ∧ c.failing = 0)) ∧
    (can c .destroy = true ↔ c.destroying ≠ 0) ∧ (can c .unweak = true ↔ c.unweaking ≠ 0) ∧ (can c .free = true ↔ c.freeing ≠ 0) ∧
    (can c .upAdd = true ↔ c.adding ≠ 0) ∧ (can c .upAnd = true ↔ c.anding ≠ 0) ∧ (can c .upStore = true ↔ c.failing ≠ 0) ∧
    (can c .loadWeak = true ↔ c.checking ≠ 0) := by
  refine ⟨?_, ?_, ?_, ?_, ?_⟩
  · simp [can]; omega
  · simp [can]; omega
  · simp [can]; omega
  · simp only [can, Cfg.upgrading]
    by_cases h : c.adding + c.anding + c.failing = 0
    · simp only [h, if_true, decide_eq_true_eq]; omega
    · simp only [h, if_false, decide_eq_true_eq]; omega
  · simp [can]; omega

/-- An interleaving is one of safe programs if each of its actions may be done after those before it, none of which is an error. -/
theorem C22_possible (c : Cfg) (as : List Act) :
    possible c as = true ↔ ∀ pre a post, as = pre ++ a :: post → ∃ c', run c pre = some c' ∧ can c' a = true := by
  induction as generalizing c with
  | nil => simp [possible]
  | cons a as ih =>
    rw [possible, Bool.and_eq_true]
    constructor
    · rintro ⟨h1, h2⟩ pre b post he
      cases pre with
      | nil =>
        cases he
        exact ⟨c, rfl, h1⟩
      | cons x pre =>
        cases he
        cases hs : step c a with
        | none =>
          rw [hs] at h2
          simp at h2
        | some c1 =>
          rw [hs] at h2
          obtain ⟨c', h3, h4⟩ := (ih c1).1 h2 pre b post rfl
          exact ⟨c', by simpa [run, hs] using h3, h4⟩
    · intro h
      obtain ⟨c', h1, h2⟩ := h [] a as rfl
      cases h1
      refine ⟨h2, ?_⟩
      cases hs : step c a with
      | none =>
        cases as with
        | nil => rfl
        | cons b as =>
          obtain ⟨c', h3, -⟩ := h [a] b as rfl
          simp [run, hs] at h3
      | some c1 =>
        refine (ih c1).2 fun pre b post he => ?_
        obtain ⟨c', h3, h4⟩ := h (a :: pre) b post (by rw [he]; rfl)
        exact ⟨c', by simpa [run, hs] using h3, h4⟩

/-- Two threads upgrade a `Weak` while two threads drop the `Arc`s: the first upgrade takes back the bit that protects the second, which then
returns an `Arc` to the destroyed value. -/
def useAfterFree : List Act :=
  [.downgrade, .upLoad, .upLoad, .upAdd, .upAnd, .dropArc, .dropArc, .destroy, .upAdd, .upAnd, .read]

theorem C22_upgrade_refuted : possible Cfg.new useAfterFree = true ∧ run Cfg.new useAfterFree = none := by
  decide +kernel

/-- An upgrade fails while the last `Arc` is dropped and another upgrade succeeds: the failing one resets the counter after the other has counted
itself.  The new `Arc` is not counted: dropping it leaves the value and the allocation alive for ever. -/
theorem C22_leak_refuted : ∃ as c, possible Cfg.new as = true ∧ run Cfg.new as = some c ∧ Idle c ∧ strongs c = 0 ∧ c.weaks = 0 ∧
    c.destroyed = 0 ∧ c.released = 0 :=
  ⟨[.downgrade, .upLoad, .dropArc, .upLoad, .upAdd, .upStore, .upAnd, .dropArc, .dropWeak],
    ⟨W - 1, 1, true, false, 0, 0, 0, 0, 0, 0, 0, 0, 0, 0, 0, 0, false⟩, by decide +kernel, by decide +kernel,
    by simp [Idle, Cfg.upgrading], rfl, rfl, rfl, rfl⟩

/-- `upgrade` returns an `Arc` although the value has been destroyed. -/
theorem C23_some_refuted : ∃ as c c', possible Cfg.new (as ++ [.upAnd]) = true ∧ run Cfg.new as = some c ∧ c.destroyed = 1 ∧
    step c .upAnd = some c' ∧ c'.arcs = c.arcs + 1 :=
  ⟨[.downgrade, .upLoad, .upLoad, .upAdd, .upAnd, .dropArc, .dropArc, .destroy, .upAdd],
    ⟨1, 2, false, false, 1, 0, 0, 1, 0, 1, 0, 0, 1, 0, 0, 0, true⟩,
    ⟨1, 2, false, false, 1, 0, 1, 1, 0, 0, 0, 0, 1, 0, 0, 0, false⟩, by decide +kernel, by decide +kernel, rfl, by decide +kernel, rfl⟩

/-- `upgrade` fails although an `Arc` exists from before its start to after its end. -/
theorem C23_none_refuted : ∃ as c c1 c2, possible Cfg.new (as ++ [.upLoad, .upStore]) = true ∧ run Cfg.new as = some c ∧
    step c .upLoad = some c1 ∧ c1.failing = c.failing + 1 ∧ step c1 .upStore = some c2 ∧
    c.upgrading = 0 ∧ 0 < c.arcs ∧ 0 < c1.arcs ∧ 0 < c2.arcs ∧ c.value = true :=
  ⟨[.downgrade, .upLoad, .dropArc, .upLoad, .upAdd, .upStore, .upAnd],
    ⟨0, 2, true, false, 0, 0, 1, 1, 0, 0, 0, 0, 0, 0, 0, 0, false⟩,
    ⟨TOP, 2, true, false, 0, 0, 1, 1, 0, 0, 1, 0, 0, 0, 0, 0, false⟩,
    ⟨0, 2, true, false, 0, 0, 1, 1, 0, 0, 0, 0, 0, 0, 0, 0, false⟩,
    by decide +kernel, by decide +kernel, by decide +kernel, rfl, by decide +kernel, rfl, by decide, by decide, by decide, rfl⟩

/-- A thread reads a strong count of 1, another one upgrades its `Weak` and drops it, the first reads a weak count of 1: exclusive access is granted
while another `Arc` exists. -/
theorem C24_race_refuted : ∃ as c, possible Cfg.new as = true ∧ run Cfg.new as = some c ∧ c.exclusive = 1 ∧ c.arcs = 1 :=
  ⟨[.downgrade, .loadStrong, .upLoad, .upAdd, .upAnd, .dropWeak, .loadWeak],
    ⟨2, 1, true, false, 0, 0, 1, 0, 0, 0, 0, 0, 0, 0, 0, 1, false⟩, by decide +kernel, by decide +kernel, rfl, rfl⟩

/-- With `try_into_inner` in the same race, the other `Arc` reads a value that was moved out, and its memory is released. -/
theorem C24_into_inner_refuted :
    possible Cfg.new [.downgrade, .loadStrong, .upLoad, .upAdd, .upAnd, .dropWeak, .loadWeak, .intoInner, .unweak, .free, .read] = true ∧
    run Cfg.new [.downgrade, .loadStrong, .upLoad, .upAdd, .upAnd, .dropWeak, .loadWeak, .intoInner, .unweak, .free, .read] = none := by
  decide +kernel

end Verif.Props.Arc
