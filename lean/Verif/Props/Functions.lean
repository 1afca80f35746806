import Verif.Macros.Functions
/-! C72: what `#[stabby]` and `#[stabby::export]` do to functions. -/
namespace Verif.Props.Functions
open Verif.Macros.Functions

/-- The calling conventions whose definition does not depend on the version of rustc. -/
def StableConvention (n : String) : Prop :=
  n = "C" ∨ n = "system" ∨ n = "stdcall" ∨ n = "aapcs" ∨ n = "cdecl" ∨ n = "fastcall" ∨ n = "win64" ∨ n = "sysv64" ∨ n = "C-unwind" ∨ n = "system-unwind"

/-- What the source asks for: the convention that is written, `C` if none is. -/
def Asked (a : Abi) (n : String) : Prop := a = .named n ∨ ((a = .absent ∨ a = .unnamed) ∧ n = "C")

/-- All types of the signature are stable; `none` is `Self`. -/
def AllStable (stable : Option Ty → Bool) (f : Fn) : Prop :=
  (∀ t, f.output = some t → stable (some t) = true) ∧ (∀ p t, .typed p t ∈ f.params → stable (some t) = true) ∧ (.receiver ∈ f.params → stable none = true)

theorem mem_conventions (n : String) : n ∈ conventions ↔ StableConvention n := by
  simp [conventions, StableConvention]

/-- **C72**: the macro panics exactly if a convention is named that is not stable. -/
theorem C72_convention (a : Attrs) (f : Fn) :
    stabby a f = none ↔ ∃ n, f.abi = .named n ∧ ¬ StableConvention n := by
  unfold stabby
  cases h : f.abi <;> simp [convention, mem_conventions]

/-- **C72**: what the macro makes has the convention that was asked for, which is stable; the same parameters, generics, safety and constness; and the same
result, or if it is `async`, a stable future of it, which is `Send` and `Sync` unless waived, for the lifetime in the attribute. -/
theorem C72_same (a : Attrs) (f : Fn) (e : Emitted) (h : stabby a f = some e) :
    StableConvention e.abi ∧ Asked f.abi e.abi ∧ e.params = f.params ∧ e.generics = f.generics ∧
    (.unsafeQ ∈ e.quals ↔ f.isUnsafe = true) ∧ (.constQ ∈ e.quals ↔ f.isConst = true) ∧ .externQ ∈ e.quals ∧ .asyncQ ∉ e.quals ∧
    (f.isAsync = false → (f.output = none → e.output = .unit) ∧ ∀ t, f.output = some t → e.output = .ty t) ∧
    (f.isAsync = true → e.output = .future a.lt f.output (!a.unsend) (!a.unsync)) := by
  unfold stabby at h
  rw [Option.map_eq_some_iff] at h
  obtain ⟨c, hc, rfl⟩ := h
  refine ⟨?_, ?_, rfl, rfl, ?_, ?_, ?_, ?_, ?_, ?_⟩
  · cases hf : f.abi with
    | absent => rw [hf] at hc; simp only [convention, Option.some.injEq] at hc; subst hc; exact Or.inl rfl
    | unnamed => rw [hf] at hc; simp only [convention, Option.some.injEq] at hc; subst hc; exact Or.inl rfl
    | named n =>
      rw [hf] at hc; simp only [convention] at hc
      split at hc
      · rename_i hn; cases hc; exact (mem_conventions _).1 hn
      · cases hc
  · cases hf : f.abi with
    | absent => rw [hf] at hc; simp only [convention, Option.some.injEq] at hc; subst hc; exact Or.inr ⟨Or.inl rfl, rfl⟩
    | unnamed => rw [hf] at hc; simp only [convention, Option.some.injEq] at hc; subst hc; exact Or.inr ⟨Or.inr rfl, rfl⟩
    | named n =>
      rw [hf] at hc; simp only [convention] at hc
      split at hc
      · cases hc; exact Or.inl rfl
      · cases hc
  · cases f.isUnsafe <;> cases f.isConst <;> simp
  · cases f.isUnsafe <;> cases f.isConst <;> simp
  · simp
  · cases f.isUnsafe <;> cases f.isConst <;> simp
  · intro ha
    simp only [ha]
    exact ⟨fun h => by simp [h], fun t h => by simp [h]⟩
  · intro ha
    simp [ha]

theorem asserts_iff (stable : Option Ty → Bool) (a : Attrs) (f : Fn) (e : Emitted) (h : stabby a f = some e) :
    e.asserts.all stable = true ↔ AllStable stable f := by
  unfold stabby at h
  rw [Option.map_eq_some_iff] at h
  obtain ⟨c, -, rfl⟩ := h
  simp only [List.all_eq_true, List.mem_append, List.mem_map, AllStable]
  constructor
  · intro h
    refine ⟨fun t ht => h _ (Or.inl (by simp [ht])), fun p t ht => h _ (Or.inr ⟨_, ht, rfl⟩), fun ht => h _ (Or.inr ⟨_, ht, rfl⟩)⟩
  · rintro ⟨ho, hp, hr⟩ x (hx | ⟨p, hp', rfl⟩)
    · cases hf : f.output with
      | none => simp [hf] at hx
      | some t => simp [hf] at hx; subst hx; exact ho t hf
    · cases p with
      | receiver => exact hr hp'
      | typed q t => exact hp q t hp'

/-- **C72**: a function that compiles has stable types only. -/
theorem C72_sound (stable : Option Ty → Bool) (bx : Bool) (needed : Nat) (a : Attrs) (f : Fn) (e : Emitted) (h : stabby a f = some e)
    (ha : accepts stable bx needed e = true) : AllStable stable f := by
  simp only [accepts, Bool.and_eq_true] at ha
  exact (asserts_iff stable a f e h).1 ha.1.1.2

/-- **C72** (partial): which functions with stable types compile: those that are not both `const` and `unsafe`, that do not need their `where` clause, and, if
they are `async`, only move parameters, where `Box` is stabby's.  Missing: the others. -/
theorem C72_complete_partial (stable : Option Ty → Bool) (bx : Bool) (needed : Nat) (a : Attrs) (f : Fn) (e : Emitted) (h : stabby a f = some e) :
    accepts stable bx needed e = true ↔
      AllStable stable f ∧ ¬ (f.isConst = true ∧ f.isUnsafe = true) ∧ needed = 0 ∧ (f.isAsync = true → f.uses = [] ∧ bx = true) := by
  have key := asserts_iff stable a f e h
  have hq : inOrder e.quals = true ↔ ¬ (f.isConst = true ∧ f.isUnsafe = true) := by
    unfold stabby at h
    rw [Option.map_eq_some_iff] at h
    obtain ⟨c, -, rfl⟩ := h
    dsimp only
    cases f.isConst <;> cases f.isUnsafe <;> decide
  have hw : e.wheres = 0 ∧ e.asyncBlock = f.isAsync ∧ e.uses = f.uses := by
    unfold stabby at h
    rw [Option.map_eq_some_iff] at h
    obtain ⟨c, -, rfl⟩ := h
    exact ⟨rfl, rfl, rfl⟩
  simp only [accepts, Bool.and_eq_true, decide_eq_true_eq, hq, key, hw.1, hw.2.1, hw.2.2]
  cases f.isAsync <;> simp <;> grind

/-- **C72** (refuted): a `const unsafe fn` never compiles. -/
theorem C72_const_unsafe_refuted (stable : Option Ty → Bool) (bx : Bool) (needed : Nat) (a : Attrs) (f : Fn) (hc : f.isConst = true) (hu : f.isUnsafe = true)
    (e : Emitted) (h : stabby a f = some e) : accepts stable bx needed e = false := by
  rw [← Bool.not_eq_true, C72_complete_partial stable bx needed a f e h]
  exact fun hh => hh.2.1 ⟨hc, hu⟩

/-- **C72** (refuted): `where` clauses are dropped, so that what needs one never compiles. -/
theorem C72_where_refuted (stable : Option Ty → Bool) (bx : Bool) (needed : Nat) (hn : 0 < needed) (a : Attrs) (f : Fn)
    (e : Emitted) (h : stabby a f = some e) : e.wheres = 0 ∧ accepts stable bx needed e = false := by
  refine ⟨?_, ?_⟩
  · unfold stabby at h
    rw [Option.map_eq_some_iff] at h
    obtain ⟨c, -, rfl⟩ := h
    rfl
  · rw [← Bool.not_eq_true, C72_complete_partial stable bx needed a f e h]
    intro hh
    have := hh.2.2.1
    omega

/-- **C72** (refuted): an `async` function that uses a parameter without moving it (a number, say) never compiles; nor does any where `Box` is the standard one. -/
theorem C72_async_refuted (stable : Option Ty → Bool) (bx : Bool) (needed : Nat) (a : Attrs) (f : Fn) (hs : f.isAsync = true) (hu : f.uses ≠ [] ∨ bx = false)
    (e : Emitted) (h : stabby a f = some e) : accepts stable bx needed e = false := by
  rw [← Bool.not_eq_true, C72_complete_partial stable bx needed a f e h]
  intro hh
  obtain ⟨h1, h2⟩ := hh.2.2.2 hs
  rcases hu with hu | hu
  · exact hu h1
  · simp [hu] at h2

/-- A parameter that a function pointer type can have too, and that a stable one can. -/
def Plain : Param → Prop
  | .receiver => False
  | .typed plain t => plain = true ∧ t.elided = false

/-- The order in which Rust's grammar has the qualifiers of a function. -/
def grammar : List Qual := [.constQ, .asyncQ, .unsafeQ, .externQ]

/-- **C72.** The rule for qualifiers is the grammar's: each at most once, in the order `const async unsafe extern`. -/
theorem C72_quals (l : List Qual) : inOrder l = true ↔ l.Sublist grammar := by
  constructor
  · have key : ∀ (l : List Qual) (q : Qual), inOrder (q :: l) = true → (q :: l).Sublist (grammar.drop q.rank) := by
      intro l
      induction l with
      | nil => intro q _; cases q <;> decide
      | cons r l ih =>
        intro q h
        simp only [inOrder, Bool.and_eq_true, decide_eq_true_eq] at h
        have := (ih r h.2).cons_cons q
        refine this.trans ?_
        have hr := h.1
        revert hr
        cases q <;> cases r <;> decide
    intro h
    cases l with
    | nil => exact List.nil_sublist _
    | cons q l => exact (key l q h).trans (List.drop_sublist _ _)
  · intro h
    have : ∀ l ∈ [[], [Qual.constQ], [.asyncQ], [.unsafeQ], [.externQ], [.constQ, .asyncQ], [.constQ, .unsafeQ], [.constQ, .externQ], [.asyncQ, .unsafeQ], [.asyncQ, .externQ],
        [.unsafeQ, .externQ], [.constQ, .asyncQ, .unsafeQ], [.constQ, .asyncQ, .externQ], [.constQ, .unsafeQ, .externQ], [.asyncQ, .unsafeQ, .externQ], grammar], inOrder l = true := by decide
    refine this l ?_
    unfold grammar at h
    rcases List.sublist_cons_iff.1 h with h1 | ⟨_, rfl, h1⟩ <;>
    rcases List.sublist_cons_iff.1 h1 with h2 | ⟨_, rfl, h2⟩ <;>
    rcases List.sublist_cons_iff.1 h2 with h3 | ⟨_, rfl, h3⟩ <;>
    rcases List.sublist_cons_iff.1 h3 with h4 | ⟨_, rfl, h4⟩ <;>
    (cases List.sublist_nil.1 h4; decide)

example : inOrder [.constQ, .unsafeQ, .externQ] = true ∧ inOrder [.unsafeQ, .constQ, .externQ] = false := by decide

/-- **C72** (partial): which functions can be exported with a report: those that compile and are not generic, not `async`, have no more than 15 parameters, all of
them plain and without elided lifetimes, and whose convention is written and is `C` or `C-unwind`.  Missing: the other conventions, or none. -/
theorem C72_export_partial (stable : Option Ty → Bool) (bx : Bool) (f : Fn) :
    exportAccepts stable bx f = true ↔
      AllStable stable f ∧ ¬ (f.isConst = true ∧ f.isUnsafe = true) ∧ f.wheres = 0 ∧ f.generics = 0 ∧ f.isAsync = false ∧
      f.params.length ≤ 15 ∧ (∀ p ∈ f.params, Plain p) ∧ (∀ t, f.output = some t → t.elided = false) ∧
      (f.abi = .unnamed ∨ f.abi = .named "C" ∨ f.abi = .named "C-unwind") := by
  unfold exportAccepts
  cases h : stabby {} f with
  | none =>
    obtain ⟨n, hn, hs⟩ := (C72_convention {} f).1 h
    simp only [Bool.false_eq_true, false_iff]
    intro hh
    rcases hh.2.2.2.2.2.2.2.2 with h | h | h <;> rw [hn] at h <;> cases h
    · exact hs (Or.inl rfl)
    · exact hs (by simp [StableConvention])
  | some e =>
    simp only [Bool.and_eq_true, C72_complete_partial stable bx f.wheres {} f e h]
    have hs := C72_same {} f e h
    obtain ⟨hconv, hask, hpar, hgen, hun, -, -, -, hout, hasy⟩ := hs
    constructor
    · rintro ⟨⟨⟨⟨hall, hcu, hw, -⟩, hwf⟩, hst⟩, hco⟩
      simp only [FnTy.wellFormed, signature, Bool.and_eq_true, Bool.not_eq_true', List.all_eq_true] at hwf
      simp only [FnTy.stable, signature, Bool.and_eq_true, Bool.or_eq_true, beq_iff_eq, List.all_eq_true] at hst
      simp only [coerces, signature, Bool.and_eq_true, beq_iff_eq, decide_eq_true_eq] at hco
      refine ⟨hall, hcu, hw, hgen ▸ hco.1.1.1.1, hwf.1, of_decide_eq_true hst.1.1.2, ?_, ?_, ?_⟩
      · intro p hp
        have h1 := hwf.2 p hp
        have h2 := hst.1.2 p hp
        cases p with
        | receiver => simp at h1
        | typed q t => simp at h1 h2; exact ⟨h1, h2.2⟩
      · intro t ht
        have := hst.2
        simp [ht] at this
        exact this.2
      · have := hst.1.1.1
        simp only [FnTy.convention] at this
        cases hf : f.abi with
        | absent => simp [hf] at this
        | unnamed => exact Or.inl rfl
        | named n => simp [hf] at this; rcases this with rfl | rfl <;> simp
    · rintro ⟨hall, hcu, hw, hg, has, hlen, hpl, ho, habi⟩
      refine ⟨⟨⟨⟨hall, hcu, hw, by simp [has]⟩, ?_⟩, ?_⟩, ?_⟩
      · simp only [FnTy.wellFormed, signature, Bool.and_eq_true, Bool.not_eq_true', List.all_eq_true]
        refine ⟨has, fun p hp => ?_⟩
        have := hpl p hp
        cases p with
        | receiver => exact this.elim
        | typed q t => exact this.1
      · simp only [FnTy.stable, signature, Bool.and_eq_true, Bool.or_eq_true, beq_iff_eq, List.all_eq_true]
        refine ⟨⟨⟨?_, decide_eq_true hlen⟩, ?_⟩, ?_⟩
        · rcases habi with h | h | h <;> simp [FnTy.convention, h]
        · intro p hp
          have := hpl p hp
          cases p with
          | receiver => exact this.elim
          | typed q t => simp [hall.2.1 q t hp, this.2]
        · cases hf : f.output with
          | none => rfl
          | some t => simp [hall.1 t hf, ho t hf]
      · simp only [coerces, signature, Bool.and_eq_true, beq_iff_eq, decide_eq_true_eq]
        refine ⟨⟨⟨⟨hgen ▸ hg, ?_⟩, ?_⟩, hpar⟩, ?_⟩
        · rcases hask with hk | ⟨hk | hk, hk'⟩ <;> rcases habi with h | h | h <;> simp_all [FnTy.convention]
        · cases hu : f.isUnsafe <;> simp_all
        · cases hf : f.output with
          | none => simp [(hout has).1 hf]
          | some t => simp [(hout has).2 t hf]

/-- **C72**: what is exported is what is reported: the type whose report a caller is compared with is that of the function, with its convention, which is stable
for function pointers, its safety, its parameters, which are stable, and its result. -/
theorem C72_export (stable : Option Ty → Bool) (bx : Bool) (f : Fn) (e : Emitted) (h : stabby {} f = some e) (ha : exportAccepts stable bx f = true) :
    (signature f).convention = e.abi ∧ (e.abi = "C" ∨ e.abi = "C-unwind") ∧ ((signature f).isUnsafe = true ↔ .unsafeQ ∈ e.quals) ∧
    (signature f).params = e.params ∧ e.generics = 0 ∧ (signature f).isAsync = false ∧
    (∀ t, e.output = .ty t ↔ (signature f).output = some t) ∧ (e.output = .unit ↔ (signature f).output = none) ∧ AllStable stable f := by
  have hp := (C72_export_partial stable bx f).1 ha
  obtain ⟨hall, -, -, hg, has, -, -, -, habi⟩ := hp
  obtain ⟨hconv, hask, hpar, hgen, hun, -, -, -, hout, -⟩ := C72_same {} f e h
  refine ⟨?_, ?_, ?_, hpar.symm, hgen ▸ hg, has, ?_, ?_, hall⟩
  · rcases hask with hk | ⟨hk | hk, hk'⟩ <;> rcases habi with h | h | h <;> simp_all [FnTy.convention, signature]
  · rcases hask with hk | ⟨hk | hk, hk'⟩ <;> rcases habi with h | h | h <;> simp_all
  · exact hun.symm
  · intro t
    cases hf : f.output with
    | none => simp [(hout has).1 hf, signature, hf]
    | some u => simp [(hout has).2 u hf, signature, hf]
  · cases hf : f.output with
    | none => simp [(hout has).1 hf, signature, hf]
    | some u => simp [(hout has).2 u hf, signature, hf]

/-- **C72** (refuted): a function whose convention is not written is given convention `C`, and yet cannot be exported; nor can one with a stable convention
other than `C` and `C-unwind`. -/
theorem C72_export_refuted (stable : Option Ty → Bool) (bx : Bool) (f : Fn)
    (h : f.abi = .absent ∨ ∃ n, f.abi = .named n ∧ StableConvention n ∧ n ≠ "C" ∧ n ≠ "C-unwind") :
    (∃ e, stabby {} f = some e) ∧ exportAccepts stable bx f = false := by
  refine ⟨?_, ?_⟩
  · cases hs : stabby {} f with
    | some e => exact ⟨e, rfl⟩
    | none =>
      obtain ⟨n, hn, hc⟩ := (C72_convention {} f).1 hs
      rcases h with h | ⟨m, h, hm, -⟩
      · rw [h] at hn; cases hn
      · rw [h] at hn; cases hn; exact (hc hm).elim
  · rw [← Bool.not_eq_true, C72_export_partial]
    intro hh
    have := hh.2.2.2.2.2.2.2.2
    rcases h with h | ⟨m, h, -, h1, h2⟩
    · simp [h] at this
    · simp [h, h1, h2] at this

/-- Everything is stable, apart from type `9`. -/
def st : Option Ty → Bool
  | some t => t.id != 9
  | none => true

/-- `extern "C" fn f(a: T1, b: T2) -> T3`. -/
def f1 : Fn := ⟨.named "C", false, false, false, 0, 0, [.typed true ⟨1, false⟩, .typed true ⟨2, false⟩], some ⟨3, false⟩, [0]⟩

example : exportAccepts st true f1 = true := by decide
example : exportAccepts st true { f1 with abi := .absent } = false ∧ exportAccepts st true { f1 with abi := .named "system" } = false := by decide
example : exportAccepts st true { f1 with output := some ⟨9, false⟩ } = false := by decide
example : (stabby {} f1).map (accepts st true 0) = some true := by decide
example : (stabby {} { f1 with isConst := true, isUnsafe := true }).map (accepts st true 0) = some false := by decide
example : (stabby {} { f1 with isConst := true }).map (accepts st true 0) = some true := by decide
example : (stabby {} { f1 with isUnsafe := true }).map (accepts st true 0) = some true := by decide
example : (stabby {} { f1 with isAsync := true }).map (accepts st true 0) = some false := by decide
example : (stabby {} { f1 with isAsync := true, uses := [] }).map (accepts st true 0) = some true := by decide
example : (stabby {} { f1 with generics := 1, wheres := 1 }).map (accepts st true 1) = some false := by decide
example : stabby {} { f1 with abi := .named "Rust" } = none := by decide
example : (stabby { unsend := true, lt := some 4 } { f1 with isAsync := true }).map (·.output) = some (.future (some 4) (some ⟨3, false⟩) false true) := by decide
example : AllStable st f1 := by
  refine ⟨?_, ?_, ?_⟩
  · intro t ht; cases ht; rfl
  · intro p t ht
    simp [f1] at ht
    rcases ht with ⟨-, rfl⟩ | ⟨-, rfl⟩ <;> rfl
  · intro h; simp [f1] at h

end Verif.Props.Functions
