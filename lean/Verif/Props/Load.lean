import Verif.Import.Load
import Verif.Props.Report
import Verif.Props.Import

/-!
# C58: a function is loaded only with the signature it was exported with

`getStabbied` is the loader, `importCheck` what links a `#[stabby::import]` to an export.
-/
namespace Verif.Props.Load
open Verif.Report Verif.Load Verif.Props.Report

/-- The report is not the one of the private aggregate of function signatures. -/
def Proper (t : Ty) : Prop := ¬ ((reportOf t).name = signature ∧ (reportOf t).module = stabbyModule)

theorem compat_mk (a b : Report) : isCompatible a b = true ↔ (a.name = b.name ∧ a.module = b.module ∧ a.version = b.version ∧ a.tyty = b.tyty) ∧
    zipAll a.fields b.fields = true := by
  cases a; cases b
  simp only [isCompatible, Report.name, Report.module, Report.version, Report.tyty, Report.fields, Bool.and_eq_true, beq_iff_eq, and_assoc]

theorem aggregate_compat {o o' : Ty} {as as' : List Ty} (ho : Proper o) (ho' : Proper o') (ha : ∀ t ∈ as, Proper t) (ha' : ∀ t ∈ as', Proper t) :
    isCompatible (reportOf (aggregate o as)) (reportOf (aggregate o' as')) = true ↔
    isCompatible (reportOf o) (reportOf o') = true ∧ as.length = as'.length ∧
      ∀ (i : Nat) (x y : Ty), as[i]? = some x → as'[i]? = some y → isCompatible (reportOf x) (reportOf y) = true := by
  induction as generalizing o o' as' with
  | nil =>
    cases as' with
    | nil => simp [aggregate]
    | cons a' as' =>
      simp only [aggregate, List.length_nil, List.length_cons]
      constructor
      · intro h
        have := (compat_mk _ _).mp h
        simp only [reportOf, Report.name, Report.module] at this
        exact absurd ⟨this.1.1, this.1.2.1⟩ ho
      · rintro ⟨_, h, _⟩; omega
  | cons a as ih =>
    cases as' with
    | nil =>
      simp only [aggregate, List.length_nil, List.length_cons]
      constructor
      · intro h
        have := (compat_mk _ _).mp h
        simp only [reportOf, Report.name, Report.module] at this
        exact absurd ⟨this.1.1.symm, this.1.2.1.symm⟩ ho'
      · rintro ⟨_, h, _⟩; omega
    | cons a' as' =>
      have ih := @ih a a' as' (ha a (by simp)) (ha' a' (by simp)) (fun t ht => ha t (by simp [ht])) (fun t ht => ha' t (by simp [ht]))
      simp only [aggregate, reportOf, isCompatible, zipAll, beq_self_eq_true, Bool.true_and, Bool.and_true, Bool.and_eq_true]
      rw [ih]
      simp only [List.length_cons, Nat.add_right_cancel_iff]
      constructor
      · rintro ⟨h1, h2, h3, h4⟩
        refine ⟨h1, h3, ?_⟩
        intro i x y hx hy
        cases i with
        | zero => cases hx; cases hy; exact h2
        | succ i => exact h4 i x y hx hy
      · rintro ⟨h1, h3, h4⟩
        exact ⟨h1, h4 0 a a' rfl rfl, h3, fun i x y hx hy => h4 (i + 1) x y hx hy⟩

theorem fnName_inj {a b a' b' : Bool} (h : fnName a b = fnName a' b') : a = a' ∧ b = b' := by
  revert a b a' b'; decide

/-- All types of a signature are proper. -/
def Sig.Proper (s : Sig) : Prop := Load.Proper s.output ∧ ∀ t ∈ s.args, Load.Proper t

/-- Compatibility of two signatures, type by type. -/
def Agrees (s s' : Sig) : Prop :=
  s.unsafety = s'.unsafety ∧ s.unwind = s'.unwind ∧ isCompatible (reportOf s.output) (reportOf s'.output) = true ∧ s.args.length = s'.args.length ∧
    ∀ (i : Nat) (x y : Ty), s.args[i]? = some x → s'.args[i]? = some y → isCompatible (reportOf x) (reportOf y) = true

theorem sig_compat {s s' : Sig} (h : Sig.Proper s) (h' : Sig.Proper s') :
    isCompatible (reportOf s.ty) (reportOf s'.ty) = true ↔ Agrees s s' := by
  simp only [Sig.ty, reportOf, isCompatible, zipAll, beq_self_eq_true, Bool.true_and, Bool.and_true, Bool.and_eq_true, beq_iff_eq]
  rw [aggregate_compat h.1 h'.1 h.2 h'.2]
  constructor
  · rintro ⟨h1, h2, h3, h4⟩
    obtain ⟨e1, e2⟩ := fnName_inj h1
    exact ⟨e1, e2, h2, h3, h4⟩
  · rintro ⟨e1, e2, h2, h3, h4⟩
    exact ⟨by rw [e1, e2], h2, h3, h4⟩

theorem suffix_ne : suffix ≠ [] ∧ reportSuffix ≠ [] := by decide

theorem get_append (l r : Lib) (n : Str) : (l ++ r).get n = (match l.get n with | some s => some s | none => r.get n) := by
  induction l with
  | nil => rfl
  | cons p l ih =>
    obtain ⟨m, s⟩ := p
    simp only [List.cons_append, Lib.get]
    split <;> rename_i h
    · rfl
    · exact ih

theorem get_export (ident : Str) (sig : Sig) (f : Nat) : (exportFn ident sig f).get (ident ++ suffix) = some (.stabbied sig f) ∧
    (exportFn ident sig f).get (ident ++ (suffix ++ reportSuffix)) = some (.report sig) := by
  have h1 : ident ≠ ident ++ suffix := by intro h; have := congrArg List.length h; simp [suffix] at this
  have h2 : ident ≠ ident ++ (suffix ++ reportSuffix) := by intro h; have := congrArg List.length h; simp [suffix] at this
  have h3 : ident ++ suffix ≠ ident ++ (suffix ++ reportSuffix) := by
    intro h; have := congrArg List.length h; simp [suffix, reportSuffix] at this
  constructor
  · simp [exportFn, Lib.get, h1]
  · simp only [exportFn, Lib.get, h2, if_false, h3, List.append_assoc, if_true]

/-- An exported function is found with its own signature, wherever it is among other symbols with other names. -/
theorem C58_found (ident : Str) (sig : Sig) (f : Nat) (before after : Lib) (hb : before.get (ident ++ suffix) = none) :
    getStabbied (before ++ exportFn ident sig f ++ after) ident sig.ty = .ok f ∧ importCheck sig f sig = some f := by
  have hc : isCompatible (reportOf sig.ty) (reportOf sig.ty) = true := compat_refl _
  constructor
  · unfold getStabbied
    rw [get_append, get_append, hb, (get_export ident sig f).1]
    simp [check, hc]
  · simp [importCheck, check, hc]

/-- Exactly when a function is handed out: the names and calling conventions of the signatures are equal, they have equally many
arguments, and the reports of outputs and of arguments are compatible one by one.  Otherwise the loader fails with the two reports. -/
theorem C58_exact (ident : Str) (sig asked : Sig) (f : Nat) (before after : Lib) (hb : before.get (ident ++ suffix) = none)
    (hb' : before.get (ident ++ (suffix ++ reportSuffix)) = none) (h : Sig.Proper sig) (h' : Sig.Proper asked) :
    let l := before ++ exportFn ident sig f ++ after
    (Agrees sig asked → getStabbied l ident asked.ty = .ok f ∧ importCheck sig f asked = some f) ∧
    (¬ Agrees sig asked → getStabbied l ident asked.ty = .mismatch (reportOf asked.ty) (reportOf sig.ty) ∧
      importCheck sig f asked = none) := by
  have hg : (before ++ exportFn ident sig f ++ after).get (ident ++ suffix) = some (.stabbied sig f) := by
    rw [get_append, get_append, hb, (get_export ident sig f).1]
  have hg' : (before ++ exportFn ident sig f ++ after).get (ident ++ (suffix ++ reportSuffix)) = some (.report sig) := by
    rw [get_append, get_append, hb', (get_export ident sig f).2]
  constructor
  · intro ha
    have hc := (sig_compat h h').mpr ha
    unfold getStabbied
    rw [hg]
    simp [importCheck, check, hc]
  · intro ha
    have hc : isCompatible (reportOf sig.ty) (reportOf asked.ty) = false := by
      rw [← Bool.not_eq_true]; exact fun hc => ha ((sig_compat h h').mp hc)
    unfold getStabbied
    rw [hg]
    simp only [importCheck, check, hc, Bool.false_eq_true, if_false, hg', and_self]

/-- A symbol that was not exported is not found. -/
theorem C58_absent (l : Lib) (symbol : Str) (t : Ty) (h : l.get (symbol ++ suffix) = none) : getStabbied l symbol t = .missing := by
  unfold getStabbied; rw [h]

/-- The types of the signatures have the same number of fields at every level. -/
def SameShapes (s s' : Sig) : Prop :=
  SameShape (reportOf s.output) (reportOf s'.output) ∧
    ∀ (i : Nat) (x y : Ty), s.args[i]? = some x → s'.args[i]? = some y → SameShape (reportOf x) (reportOf y)

theorem plain_proper {t : Ty} (h : Plain t) (hs : ∀ l r, t ≠ .sig l r) : Proper t := by
  unfold Proper
  cases t <;> simp_all [reportOf, Plain, Report.module, Report.name, modules_ne, modules_ne.2.2.symm]

/-- Among signatures of plain types with as many fields at every level, a function is handed out only for the very same signature.
What is missing: types with different numbers of fields (`C58_fields_refuted`) and types that are not functions
(`C58_wrapper_refuted`). -/
theorem C58_same_signature_partial (ident : Str) (sig asked : Sig) (f g : Nat) (before after : Lib) (hb : before.get (ident ++ suffix) = none)
    (hp : ∀ t ∈ sig.output :: sig.args, Plain t ∧ ∀ l r, t ≠ .sig l r) (hp' : ∀ t ∈ asked.output :: asked.args, Plain t ∧ ∀ l r, t ≠ .sig l r)
    (hs : SameShapes sig asked)
    (h : getStabbied (before ++ exportFn ident sig f ++ after) ident asked.ty = .ok g ∨ importCheck sig f asked = some g) :
    asked = sig ∧ g = f := by
  have P : Sig.Proper sig := ⟨plain_proper (hp _ (by simp)).1 (hp _ (by simp)).2,
    fun t ht => plain_proper (hp _ (by simp [ht])).1 (hp _ (by simp [ht])).2⟩
  have P' : Sig.Proper asked := ⟨plain_proper (hp' _ (by simp)).1 (hp' _ (by simp)).2,
    fun t ht => plain_proper (hp' _ (by simp [ht])).1 (hp' _ (by simp [ht])).2⟩
  have hg : (before ++ exportFn ident sig f ++ after).get (ident ++ suffix) = some (.stabbied sig f) := by
    rw [get_append, get_append, hb, (get_export ident sig f).1]
  have hc : isCompatible (reportOf sig.ty) (reportOf asked.ty) = true ∧ g = f := by
    rcases h with h | h
    · unfold getStabbied at h
      rw [hg] at h
      dsimp only at h
      unfold check at h
      by_cases hc : isCompatible (reportOf sig.ty) (reportOf asked.ty) = true
      · rw [if_pos hc] at h; cases h; exact ⟨hc, rfl⟩
      · rw [if_neg hc] at h
        dsimp only at h
        split at h <;> cases h
    · unfold importCheck check at h
      split at h
      · cases h; exact ⟨‹_›, rfl⟩
      · cases h
  refine ⟨?_, hc.2⟩
  obtain ⟨e1, e2, e3, e4, e5⟩ := (sig_compat P P').mp hc.1
  have ho : sig.output = asked.output := reportOf_inj _ _ (hp _ (by simp)).1 (hp' _ (by simp)).1
    ((C38_is_compatible_partial _ _).2 hs.1 e3)
  have hargs : sig.args = asked.args := by
    apply List.ext_getElem? 
    intro i
    cases hi : sig.args[i]? with
    | none =>
      rw [List.getElem?_eq_none_iff] at hi
      rw [eq_comm, List.getElem?_eq_none_iff]; omega
    | some x =>
      have hlt := (List.getElem?_eq_some_iff.mp hi).1
      have hy : asked.args[i]? = some asked.args[i] := List.getElem?_eq_getElem (by omega)
      rw [hy]
      have m1 : x ∈ sig.args := List.mem_of_getElem? hi
      have m2 : asked.args[i] ∈ asked.args := List.getElem_mem _
      rw [reportOf_inj _ _ (hp x (by simp [m1])).1 (hp' _ (by simp [m2])).1
        ((C38_is_compatible_partial _ _).2 (hs.2 i _ _ hi hy) (e5 i _ _ hi hy))]
  cases sig; cases asked; simp_all

/-- `u8` and `u16`. -/
def tu8 : Ty := .prim [117, 56]
def tu16 : Ty := .prim [117, 49, 54]

/-- `extern "C" fn(u8, u16) -> u8` is found in a library next to another function, and refused to a loader that swaps the arguments or
leaves one out. -/
example : let s : Sig := ⟨false, false, tu8, [tu8, tu16]⟩
    let l := exportFn [102] ⟨true, false, tu8, []⟩ 1 ++ exportFn [103] s 2 ++ []
    (∃ f, getStabbied l [103] s.ty = .ok f ∧ f = 2) ∧ (∃ a b, getStabbied l [103] (Sig.ty ⟨false, false, tu8, [tu16, tu8]⟩) = .mismatch a b) ∧
    (∃ a b, getStabbied l [103] (Sig.ty ⟨false, false, tu8, [tu8]⟩) = .mismatch a b) ∧
    (∀ t ∈ s.output :: s.args, Plain t ∧ ∀ l r, t ≠ .sig l r) ∧ SameShapes s s := by
  refine ⟨⟨2, rfl, rfl⟩, ⟨_, _, rfl⟩, ⟨_, _, rfl⟩, ?_, trivial, ?_⟩
  · intro t ht
    simp only [List.mem_cons, List.not_mem_nil, or_false] at ht
    rcases ht with rfl | rfl | rfl <;> exact ⟨trivial, by intro l r h; cases h⟩
  · intro i x y hx hy
    rw [hx] at hy; cases hy
    have : x ∈ [tu8, tu16] := List.mem_of_getElem? hx
    simp only [List.mem_cons, List.not_mem_nil, or_false] at this
    rcases this with rfl | rfl <;> trivial

/-- An import of any number of threads that is linked to an export returns the function in all calls, or fails in all calls,
according to the check. -/
theorem C58_import (acquire : Bool) (n : Nat) (as : List Import.Act) (c : Import.Cfg) (hc : Import.run acquire (Import.Cfg.new n) as = some c)
    (sig asked : Sig) (f : Nat) (hr : ∀ x ∈ c.checks, x = importCheck sig f asked) (h : Sig.Proper sig) (h' : Sig.Proper asked) :
    (Agrees sig asked → ∀ x ∈ c.outs, x = some f) ∧ (¬ Agrees sig asked → ∀ x ∈ c.outs, x = none) := by
  have ho := Import.C40_same_answer acquire n as c hc _ hr
  have he := C58_exact [] sig asked f [] [] rfl rfl h h'
  exact ⟨fun ha x hx => by rw [ho x hx, (he.1 ha).2], fun ha x hx => by rw [ho x hx, (he.2 ha).2]⟩

/-- A function that takes a struct with one field is handed out as one that takes a struct with two. -/
theorem C58_fields_refuted : ∃ sig asked : Sig, sig.args ≠ asked.args ∧ (∀ t ∈ sig.args ++ asked.args, Plain t) ∧
    ∀ ident f, getStabbied (exportFn ident sig f) ident asked.ty = .ok f := by
  refine ⟨⟨false, false, tu8, [.item [109] [83] .struct 0 [([120], tu8)]]⟩, ⟨false, false, tu8, [.item [109] [83] .struct 0 [([121], tu8), ([120], tu8)]]⟩,
    by simp, ?_, ?_⟩
  · intro t ht
    simp only [List.cons_append, List.nil_append, List.mem_cons, List.not_mem_nil, or_false] at ht
    rcases ht with rfl | rfl <;> simp [Plain, PlainF, implsModule, stabbyModule, optionModule, tu8]
  · intro ident f
    unfold getStabbied
    rw [(get_export ident _ f).1]
    rfl

/-- Any function is handed out as a `ManuallyDrop`, `UnsafeCell` or `MaybeUninit` of any other function type of the same calling convention. -/
theorem C58_wrapper_refuted (ident : Str) (sig : Sig) (f : Nat) (output : Ty) (args : List Ty) :
    let other : Sig := ⟨sig.unsafety, sig.unwind, output, args⟩
    getStabbied (exportFn ident sig f) ident (.manuallyDrop other.ty) = .ok f ∧
    getStabbied (exportFn ident sig f) ident (.unsafeCell other.ty) = .ok f ∧
    getStabbied (exportFn ident sig f) ident (.maybeUninit other.ty) = .ok f := by
  refine ⟨?_, ?_, ?_⟩ <;>
  · unfold getStabbied
    rw [(get_export ident sig f).1]
    simp [check, Sig.ty, reportOf, isCompatible, zipAll, Report.name]

end Verif.Props.Load
