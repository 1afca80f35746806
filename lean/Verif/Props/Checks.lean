import Verif.Build.Checks
/-! C110: checks that builds may leave out.

The specification: a program in which no check fails does the same in all builds; in a build that checks, a check that fails is a panic at this place. -/
namespace Verif.Props.Checks
open Verif.Build.Checks

/-- All crates check. -/
def Checking (fl : Nat → Flags) : Prop := ∀ i, (fl i).checked = true

/-- All types that are compared have a `!=` that says the opposite of `==`. -/
def Lawful {σ : Type} : Prog σ → Prop
  | .code _ | .unreachable _ | .assert _ _ _ => True
  | .assertEq _ _ eq ne _ _ _ => ∀ x y, ne x y = !eq x y
  | .seq p q | .ite _ p q | .catch p q => Lawful p ∧ Lawful q
  | .loop _ p => Lawful p

/-- The outcome is that of a check that failed just now. -/
def Fails {σ : Type} (o : Out σ) : Prop := ∃ s, o = .checkFailed s

/-- In one of the first `n` rounds, a check fails. -/
def FailsInRound {σ : Type} (c : σ → Bool) (f : σ → Out σ) (F : σ → Prop) : Nat → σ → Prop
  | 0, _ => False
  | n + 1, s => c s = true ∧ (F s ∨ ∃ s', f s = .done s' ∧ FailsInRound c f F n s')

/-- In that run, a check fails at some time, whether or not its panic is caught. -/
def Ever {σ : Type} (fl : Nat → Flags) (n : Nat) : Prog σ → σ → Prop
  | .code _, _ => False
  | .unreachable i, s => Fails (run fl n (.unreachable i) s)
  | .assert i e m, s => Fails (run fl n (.assert i e m) s)
  | .assertEq i α eq ne a b m, s => Fails (run fl n (.assertEq i α eq ne a b m) s)
  | .seq p q, s => Ever fl n p s ∨ ∃ s', run fl n p s = .done s' ∧ Ever fl n q s'
  | .ite c p q, s => if c s then Ever fl n p s else Ever fl n q s
  | .loop c p, s => FailsInRound c (run fl n p) (Ever fl n p) n s
  | .catch p q, s => Ever fl n p s ∨ ∃ s', (run fl n p s = .panic s' ∨ run fl n p s = .checkFailed s') ∧ Ever fl n q s'

theorem one_assert {σ : Type} (f f' : Flags) (hc : f.checked = true) (e : σ → Val σ Bool) (m : σ → Val σ Unit) (s : σ) :
    (¬ Fails (assert f e m s) → assert f' e m s = assert f e m s) ∧ (Fails (assert f e m s) → f'.checked = false → assert f' e m s = .ub) := by
  unfold Verif.Build.Checks.assert
  rw [hc]
  simp only [if_true]
  cases he : e s with
  | panic s' => exact ⟨fun _ => rfl, fun ⟨_, h⟩ => by cases h⟩
  | ub => exact ⟨fun _ => rfl, fun ⟨_, h⟩ => by cases h⟩
  | value b s' =>
    cases b
    · simp only
      cases hm : m s' with
      | value _ s'' => exact ⟨fun h => absurd ⟨s'', rfl⟩ h, fun _ h => by rw [h]; rfl⟩
      | panic s'' => exact ⟨fun h => absurd ⟨s'', rfl⟩ h, fun _ h => by rw [h]; rfl⟩
      | ub => exact ⟨fun _ => by simp, fun ⟨_, h⟩ => by cases h⟩
    · exact ⟨fun _ => rfl, fun ⟨_, h⟩ => by cases h⟩

theorem one_assertEq {σ α : Type} (f f' : Flags) (hc : f.checked = true) (eq ne : α → α → Bool) (hl : ∀ x y, ne x y = !eq x y) (a b : σ → Val σ α) (m : σ → Val σ Unit) (s : σ) :
    (¬ Fails (assertEq f eq ne a b m s) → assertEq f' eq ne a b m s = assertEq f eq ne a b m s) ∧
    (Fails (assertEq f eq ne a b m s) → f'.checked = false → assertEq f' eq ne a b m s = .ub) := by
  unfold Verif.Build.Checks.assertEq
  rw [hc]
  simp only [if_true]
  cases ha : a s with
  | panic s' => exact ⟨fun _ => rfl, fun ⟨_, h⟩ => by cases h⟩
  | ub => exact ⟨fun _ => rfl, fun ⟨_, h⟩ => by cases h⟩
  | value x s' =>
    simp only
    cases hb : b s' with
    | panic s'' => exact ⟨fun _ => rfl, fun ⟨_, h⟩ => by cases h⟩
    | ub => exact ⟨fun _ => rfl, fun ⟨_, h⟩ => by cases h⟩
    | value y s'' =>
      simp only [hl x y]
      cases eq x y
      · cases hm : m s'' with
        | value _ t => exact ⟨fun h => absurd ⟨t, rfl⟩ h, fun _ h => by rw [h]; rfl⟩
        | panic t => exact ⟨fun h => absurd ⟨t, rfl⟩ h, fun _ h => by rw [h]; rfl⟩
        | ub => exact ⟨fun _ => by simp, fun ⟨_, h⟩ => by cases h⟩
      · exact ⟨fun _ => by simp, fun ⟨_, h⟩ => by cases h⟩

/-- C110: a program in which no check fails, in a build that checks, does the same in every build: the macros neither change what is computed, nor evaluate their operands
another number of times or in another order.  Partial: comparisons with `!=` that is not the opposite of `==`, see `C110_eq_refuted`. -/
theorem C110_same_partial {σ : Type} (fl fl' : Nat → Flags) (hc : Checking fl) (n : Nat) (p : Prog σ) (hp : Lawful p) (s : σ)
    (h : ¬ Ever fl n p s) : run fl' n p s = run fl n p s := by
  induction p generalizing s with
  | code f => rfl
  | unreachable i => exact absurd ⟨s, by simp [run, unreachable, hc i]⟩ h
  | assert i e m => exact (one_assert _ _ (hc i) e m s).1 h
  | assertEq i α eq ne a b m => exact (one_assertEq _ _ (hc i) eq ne hp a b m s).1 h
  | seq p q ihp ihq =>
    simp only [Ever, not_or, not_exists, not_and] at h
    simp only [run, ihp hp.1 s h.1]
    cases hr : run fl n p s with
    | done s' => exact ihq hp.2 s' (h.2 s' hr)
    | _ => rfl
  | ite c p q ihp ihq =>
    simp only [run, Ever] at h ⊢
    split
    · rename_i hcs; rw [if_pos hcs] at h; exact ihp hp.1 s h
    · rename_i hcs; rw [if_neg hcs] at h; exact ihq hp.2 s h
  | loop c p ih =>
    simp only [run, Ever] at h ⊢
    have : ∀ k s, ¬ FailsInRound c (run fl n p) (Ever fl n p) k s → repeated c (run fl' n p) k s = repeated c (run fl n p) k s := by
      intro k
      induction k with
      | zero => intro s _; rfl
      | succ k ihk =>
        intro s h
        unfold repeated
        split
        · rename_i hcs
          have h1 : ¬ Ever fl n p s := fun x => h ⟨hcs, .inl x⟩
          rw [ih hp s h1]
          cases hr : run fl n p s with
          | done s' => exact ihk s' (fun x => h ⟨hcs, .inr ⟨s', hr, x⟩⟩)
          | _ => rfl
        · rfl
    exact this n s h
  | «catch» p q ihp ihq =>
    simp only [Ever, not_or, not_exists, not_and] at h
    simp only [run, ihp hp.1 s h.1]
    cases hr : run fl n p s with
    | panic s' => exact ihq hp.2 s' (h.2 s' (.inl hr))
    | checkFailed s' => exact ihq hp.2 s' (h.2 s' (.inr hr))
    | _ => rfl

/-- C110: whenever a check fails in a build that checks, also if its panic is caught, builds without checks are undefined behaviour. -/
theorem C110_ub_partial {σ : Type} (fl fl' : Nat → Flags) (hc : Checking fl) (hu : ∀ i, (fl' i).checked = false) (n : Nat) (p : Prog σ) (hp : Lawful p) (s : σ)
    (h : Ever fl n p s) : run fl' n p s = .ub := by
  induction p generalizing s with
  | code f => exact h.elim
  | unreachable i => simp [run, unreachable, hu i]
  | assert i e m => exact (one_assert _ _ (hc i) e m s).2 h (hu i)
  | assertEq i α eq ne a b m => exact (one_assertEq _ _ (hc i) eq ne hp a b m s).2 h (hu i)
  | seq p q ihp ihq =>
    simp only [run]
    by_cases h1 : Ever fl n p s
    · rw [ihp hp.1 s h1]; rfl
    · obtain ⟨s', hr, h2⟩ := h.resolve_left h1
      rw [C110_same_partial fl fl' hc n p hp.1 s h1, hr]
      exact ihq hp.2 s' h2
  | ite c p q ihp ihq =>
    simp only [run, Ever] at h ⊢
    split
    · rename_i hcs; rw [if_pos hcs] at h; exact ihp hp.1 s h
    · rename_i hcs; rw [if_neg hcs] at h; exact ihq hp.2 s h
  | loop c p ih =>
    simp only [run, Ever] at h ⊢
    have : ∀ k s, FailsInRound c (run fl n p) (Ever fl n p) k s → repeated c (run fl' n p) k s = .ub := by
      intro k
      induction k with
      | zero => intro s h; exact h.elim
      | succ k ihk =>
        rintro s ⟨hcs, h⟩
        unfold repeated
        rw [if_pos hcs]
        by_cases h1 : Ever fl n p s
        · rw [ih hp s h1]; rfl
        · obtain ⟨s', hr, h2⟩ := h.resolve_left h1
          rw [C110_same_partial fl fl' hc n p hp s h1, hr]
          exact ihk s' h2
    exact this n s h
  | «catch» p q ihp ihq =>
    simp only [run]
    by_cases h1 : Ever fl n p s
    · rw [ihp hp.1 s h1]
    · obtain ⟨s', hr, h2⟩ := h.resolve_left h1
      rw [C110_same_partial fl fl' hc n p hp.1 s h1]
      rcases hr with hr | hr <;> rw [hr] <;> exact ihq hp.2 s' h2

/-- C110: the other way round, what is undefined in a build without checks, but not in one with checks, is a check that fails there. -/
theorem C110_reveals_partial {σ : Type} (fl fl' : Nat → Flags) (hc : Checking fl) (n : Nat) (p : Prog σ) (hp : Lawful p) (s : σ)
    (h : run fl' n p s = .ub) (h' : run fl n p s ≠ .ub) : Ever fl n p s := by
  apply Classical.byContradiction
  intro he
  exact h' ((C110_same_partial fl fl' hc n p hp s he).symm.trans h)

/-- C110: a check that fails ends the program there, or the round of the loop, unless the panic is caught; and so do other panics. -/
theorem C110_stops {σ : Type} (fl : Nat → Flags) (n : Nat) (p q : Prog σ) (c : σ → Bool) (s : σ) (h : ∀ s', run fl n p s ≠ .done s') :
    run fl n (.seq p q) s = run fl n p s ∧ (c s = true → 0 < n → run fl n (.loop c p) s = run fl n p s) ∧
    ∀ s', (run fl n p s = .panic s' ∨ run fl n p s = .checkFailed s') → run fl n (.catch p q) s = run fl n q s' := by
  have hb : ∀ f, (run fl n p s).bind f = run fl n p s := by
    intro f
    cases hr : run fl n p s with
    | done s' => exact absurd hr (h s')
    | _ => rfl
  refine ⟨hb _, fun hc hn => ?_, fun s' hr => ?_⟩
  · obtain ⟨k, rfl⟩ : ∃ k, n = k + 1 := ⟨n - 1, by omega⟩
    simp only [run, repeated, hc, if_true]
    exact hb _
  · rcases hr with hr | hr <;> simp [run, hr]

/-- The program ends in the operand. -/
inductive Ends {σ α : Type} (e : σ → Val σ α) (s : σ) : Out σ → Prop where
  | panic {s'} : e s = .panic s' → Ends e s (.panic s')
  | ub : e s = .ub → Ends e s .ub

/-- What a check that does not hold does: the message is made, then the panic starts. -/
inductive FailsAt {σ : Type} (checks : Prop) (m : σ → Val σ Unit) (s : σ) : Out σ → Prop where
  | failed {s'} : checks → (m s = .value () s' ∨ m s = .panic s') → FailsAt checks m s (.checkFailed s')
  | ub : checks → m s = .ub → FailsAt checks m s .ub
  | unchecked : ¬ checks → FailsAt checks m s .ub

theorem failsAt {σ : Type} (m : σ → Val σ Unit) (s : σ) (o : Out σ) : FailsAt True m s o ↔
    (match m s with | .value _ s => Out.checkFailed s | .panic s => .checkFailed s | .ub => .ub) = o := by
  constructor
  · rintro (⟨_, hm | hm⟩ | ⟨_, hm⟩ | hc) <;> simp_all
  · rintro rfl
    cases hm : m s with
    | value _ s'' => exact .failed trivial (.inl hm)
    | panic s'' => exact .failed trivial (.inr hm)
    | ub => exact .ub trivial hm

theorem failsAt_unchecked {σ : Type} (m : σ → Val σ Unit) (s : σ) (o : Out σ) : FailsAt False m s o ↔ .ub = o := by
  constructor
  · rintro (⟨hc, _⟩ | ⟨hc, _⟩ | _) <;> simp_all
  · rintro rfl
    exact .unchecked id

theorem ends {σ α : Type} (e : σ → Val σ α) (s : σ) (o : Out σ) : Ends e s o ↔
    match e s with | .value _ _ => False | .panic s' => .panic s' = o | .ub => .ub = o := by
  constructor
  · rintro (h | h) <;> simp [h]
  · intro h
    cases he : e s with
    | value a s' => simp [he] at h
    | panic s' => simp only [he] at h; exact h ▸ .panic he
    | ub => simp only [he] at h; exact h ▸ .ub he

/-- C110: in all builds the operand of `assert_unchecked!` is evaluated once, with its effects, and how it ends decides how the check ends. -/
theorem C110_assert_operand {σ : Type} (f : Flags) (e : σ → Val σ Bool) (m : σ → Val σ Unit) (s : σ) (o : Out σ) :
    assert f e m s = o ↔ Ends e s o ∨ (∃ s', e s = .value true s' ∧ .done s' = o) ∨ ∃ s', e s = .value false s' ∧ FailsAt (f.checked = true) m s' o := by
  rw [ends]
  unfold Verif.Build.Checks.assert
  cases hc : f.checked <;> rcases e s with ⟨_ | _, s'⟩ | s' | _ <;> simp [failsAt, failsAt_unchecked] <;> exact Iff.rfl

/-- C110: the same for the two operands of `assert_eq_unchecked!`, the left one first. -/
theorem C110_assert_eq_operands {σ α : Type} (f : Flags) (eq ne : α → α → Bool) (hl : ∀ x y, ne x y = !eq x y) (a b : σ → Val σ α) (m : σ → Val σ Unit) (s : σ) (o : Out σ) :
    assertEq f eq ne a b m s = o ↔ Ends a s o ∨ ∃ x s₁, a s = .value x s₁ ∧ (Ends b s₁ o ∨
      ∃ y s₂, b s₁ = .value y s₂ ∧ (eq x y = true ∧ .done s₂ = o ∨ eq x y = false ∧ FailsAt (f.checked = true) m s₂ o)) := by
  simp only [ends]
  unfold Verif.Build.Checks.assertEq
  rcases a s with ⟨x, s₁⟩ | s' | _
  · have he : ∀ P : α → σ → Prop, (∃ x' s₁', Val.value x s₁ = .value x' s₁' ∧ P x' s₁') ↔ P x s₁ :=
      fun P => ⟨fun ⟨_, _, h, h'⟩ => by cases h; exact h', fun h => ⟨x, s₁, rfl, h⟩⟩
    simp only [he, false_or]
    rcases hb : b s₁ with ⟨y, s₂⟩ | s' | _
    · have he : ∀ P : α → σ → Prop, (∃ x' s₁', Val.value y s₂ = .value x' s₁' ∧ P x' s₁') ↔ P y s₂ :=
        fun P => ⟨fun ⟨_, _, h, h'⟩ => by cases h; exact h', fun h => ⟨y, s₂, rfl, h⟩⟩
      simp only [he, false_or]
      cases hc : f.checked <;> cases he : eq x y <;> simp [hl, he, failsAt, failsAt_unchecked] <;> exact Iff.rfl
    · simp
    · simp
  · simp
  · simp

/-- An operand with an effect: it takes place in all builds. -/
example (f : Flags) : assert f (fun n : Nat => .value (n = 3) (n + 1)) (fun n => .value () n) 3 = .done 4 :=
  (C110_assert_operand f _ _ _ _).2 (.inr (.inl ⟨4, by simp, rfl⟩))
example (f : Flags) : assert f (fun n : Nat => .panic (n + 1)) (fun n => .value () n) 3 = .panic 4 :=
  (C110_assert_operand f _ _ _ _).2 (.inl (.panic rfl))

/-- C110: checks are those of debug builds and of `--cfg stabby_check_unreachable="true"`; `"false"`, or the option without a value, add none. -/
theorem C110_checked_iff (f : Flags) : f.checked = true ↔ f.debug = true ∨ some "true" ∈ f.check := by
  simp [Flags.checked]
example : Flags.checked ⟨false, [none, some "false"]⟩ = false ∧ Flags.checked ⟨false, [some "true"]⟩ = true ∧ Flags.checked ⟨true, []⟩ = true := by decide

/-- The three kinds of builds. -/
def debug : Nat → Flags := fun _ => ⟨true, []⟩
def release : Nat → Flags := fun _ => ⟨false, []⟩
/-- Counts down from `s` to 1; the check of each round is that it is not yet zero. -/
def countdown : Prog Nat :=
  .loop (fun s => s != 1) (.seq (.assert 0 (fun s => .value (s != 0) s) (fun s => .value () s)) (.code fun s => .done (s - 1)))
example : Checking debug ∧ Lawful countdown ∧ run debug 10 countdown 5 = .done 1 ∧ run release 10 countdown 5 = .done 1 ∧
    run debug 10 countdown 0 = .checkFailed 0 ∧ run release 10 countdown 0 = .ub := ⟨fun _ => rfl, ⟨trivial, trivial⟩, rfl, rfl, rfl, rfl⟩
example : Ever debug 10 countdown 0 ∧ ¬ Ever debug 10 countdown 1 := ⟨⟨rfl, .inl (.inl ⟨0, rfl⟩)⟩, fun h => by cases h.1⟩
/-- A failed check whose panic is caught. -/
example : run debug 10 (.catch countdown (.code fun _ => .done 7)) 0 = .done 7 ∧ Ever debug 10 (.catch countdown (.code fun _ => .done 7)) 0 ∧
    run release 10 (.catch countdown (.code fun _ => .done 7)) 0 = .ub := ⟨rfl, .inl ⟨rfl, .inl (.inl ⟨0, rfl⟩)⟩, rfl⟩

/-- C110 does not hold for types whose `!=` is not the opposite of `==`: the check passes in debug builds, and the very same program is undefined behaviour in release builds. -/
theorem C110_eq_refuted {σ α : Type} (eq ne : α → α → Bool) (x y : α) (h : eq x y = true) (h' : ne x y = true) (s : σ) (n : Nat) :
    run debug n (.assertEq 0 α eq ne (fun s => .value x s) (fun s => .value y s) (fun s => .value () s)) s = .done s ∧
    run release n (.assertEq 0 α eq ne (fun s => .value x s) (fun s => .value y s) (fun s => .value () s)) s = .ub := by
  simp [run, Verif.Build.Checks.assertEq, debug, release, Flags.checked, h, h']
example : run debug 1 (.assertEq 0 Nat (fun _ _ => true) (· != ·) (fun s => .value 1 s) (fun s => .value 2 s) (fun s => .value () s)) () = .done () ∧
    run release 1 (.assertEq 0 Nat (fun _ _ => true) (· != ·) (fun s => .value 1 s) (fun s => .value 2 s) (fun s => .value () s)) () = .ub :=
  C110_eq_refuted (fun _ _ => true) (· != ·) 1 2 rfl rfl () 1

/-- C110: `unwrap_unchecked` and `unwrap_err_unchecked` give the value that there is, in all builds; otherwise it depends on how *stabby-abi* was compiled, not its user, whether that
is a panic. -/
theorem C110_unwrap {α ε : Type} (f : Flags) (r : Except ε α) (o : Option α) :
    (∀ a, unwrapUnchecked f r = .ok a ↔ r = .ok a) ∧ (∀ e, unwrapErrUnchecked f r = .ok e ↔ r = .error e) ∧ (∀ a, optUnwrapUnchecked f o = .ok a ↔ o = some a) ∧
    (unwrapUnchecked f r = .ub ↔ f.checked = false ∧ ∃ e, r = .error e) ∧ (unwrapErrUnchecked f r = .ub ↔ f.checked = false ∧ ∃ a, r = .ok a) ∧
    (optUnwrapUnchecked f o = .ub ↔ f.checked = false ∧ o = none) ∧
    unwrapUnchecked f r ≠ .panic ∧ unwrapErrUnchecked f r ≠ .panic ∧ optUnwrapUnchecked f o ≠ .panic := by
  cases h : f.checked <;> cases r <;> cases o <;> simp [unwrapUnchecked, unwrapErrUnchecked, optUnwrapUnchecked, unreachableRet, h]

/-- C110: `Box` and `Arc` never get to the places that they declare unreachable, in no build: values that were allocated are in their box, others are returned, or dropped in a panic. -/
theorem C110_new {τ α : Type} (f : Flags) (v : τ) (a : α) :
    (∀ p, tryNewIn f v a (some p) = .ok (.ok ⟨p, a, some v⟩) ∧ newIn v a (some p) = .ok ⟨p, a, some v⟩) ∧
    tryNewIn f v a none = .ok (.error (v, a)) ∧ newIn v a none = .panic :=
  ⟨fun _ => ⟨rfl, rfl⟩, rfl, rfl⟩

/-- C110: constructors that declare a failure get back what was allocated, and it is not taken for initialised. -/
theorem C110_make {τ α : Type} (w : Option τ) (a : α) (p : Nat) :
    makeIn (w, false) a (some p) = .ok (.error ⟨p, a, none⟩) ∧ makeIn (w, true) a (some p) = .ok (.ok ⟨p, a, w⟩) ∧ ∀ c : Option τ × Bool, makeIn c a none = .panic :=
  ⟨rfl, rfl, fun _ => rfl⟩

/-- C110: `assert_unchecked!` and `assert_eq_unchecked!` have to have a message, or a comma in its place. -/
theorem C110_accepts_iff (c : Call) : (acceptsAssert c = true ↔ 2 ≤ c.args ∨ c.args = 1 ∧ c.trailing = true) ∧
    (acceptsAssertEq c = true ↔ 3 ≤ c.args ∨ c.args = 2 ∧ c.trailing = true) ∧ (acceptsUnreachable c = true ↔ c = ⟨0, false⟩) := by
  obtain ⟨n, b⟩ := c
  refine ⟨?_, ?_, ?_⟩
  · simp only [acceptsAssert, Call.matches, Bool.or_eq_true, decide_eq_true_eq, Bool.and_eq_true, beq_iff_eq]
    rw [eq_comm (a := 1)]; rfl
  · simp only [acceptsAssertEq, Call.matches, Bool.or_eq_true, decide_eq_true_eq, Bool.and_eq_true, beq_iff_eq]
    rw [eq_comm (a := 2)]; rfl
  · simp [acceptsUnreachable]

/-- C110: so that `assert_unchecked!(condition)`, as documented, does not compile. -/
theorem C110_message_refuted : acceptsAssert ⟨1, false⟩ = false ∧ acceptsAssertEq ⟨2, false⟩ = false ∧ acceptsAssert ⟨1, true⟩ = true := by decide

end Verif.Props.Checks
