import Verif.Macros.Methods
import Mathlib.Data.List.Dedup

/-! C88: lifetimes and conventions of methods. -/
namespace Verif.Props.Methods
open Verif.Macros.Methods

/-! ### Specification: Rust's lifetimes -/

/-- What a lifetime is: `'static`, one with a name, or the one of the `n`th place in the parameters where none is written. -/
inductive Res where
  | static
  | named (n : Nat)
  | fresh (n : Nat)
  deriving DecidableEq, Repr

/-- What a lifetime is, `k` places having none before it. -/
def _root_.Verif.Macros.Methods.Lt.res (k : Nat) : Lt → Res
  | .elided => .fresh k
  | .static => .static
  | .named n => .named n

/-- The lifetimes of the parameters: each that is not written is its own. -/
def resIn : Nat → List Lt → List Res × Nat
  | n, [] => ([], n)
  | n, .elided :: l => (.fresh n :: (resIn (n + 1) l).1, (resIn (n + 1) l).2)
  | n, .static :: l => (.static :: (resIn n l).1, (resIn n l).2)
  | n, .named k :: l => (.named k :: (resIn n l).1, (resIn n l).2)

/-- Those of several parameters. -/
def resIns : Nat → List (List Lt) → List (List Res)
  | _, [] => []
  | n, l :: ls => (resIn n l).1 :: resIns (resIn n l).2 ls

/-- The lifetimes of the output, those that are not written being `r`. -/
def resOut (r : Res) (l : List Lt) : List Res := l.map fun
  | .elided => r
  | .static => .static
  | .named n => .named n

/-- The lifetimes of a signature. -/
structure Sig where
  inputs : List (List Res)
  output : List Res
  deriving DecidableEq, Repr

/-- The signature of a method: what the output doesn't say is the receiver's (The Rust Reference, Lifetime elision). -/
def methodSig (lt : Lt) (inputs : List (List Lt)) (output : List Lt) : Sig :=
  ⟨resIns 0 ([lt] :: inputs), match resIns 0 ([lt] :: inputs) with
    | (r :: _) :: _ => resOut r output
    | _ => []⟩

/-- The signature of a function pointer: what the output doesn't say is the only lifetime of the parameters, if there is only one. -/
def pointerSig (inputs : List (List Lt)) (output : List Lt) : Option Sig :=
  if .elided ∈ output then match (resIns 0 inputs).flatten.dedup with
    | [r] => some ⟨resIns 0 inputs, resOut r output⟩
    | _ => none
  else some ⟨resIns 0 inputs, resOut .static output⟩

/-- The names of the lifetimes that are parameters. -/
def names (ps : List GParam) : List Nat := ps.filterMap fun
  | .lifetime n _ => some n
  | .type _ => none

/-- What Rust reads before the `fn` of a type: `unsafe`, then the convention. -/
def quals : List Qual → Option (Bool × Conv)
  | [.extern c] => some (false, c)
  | [.unsafe_, .extern c] => some (true, c)
  | _ => none

/-- A type of function pointers is legal if what is before `fn` is in order, the lifetimes after `for` have no bounds, those in the output are in the
parameters too, and it is clear which those are that aren't written. -/
def Legal (p : Pointer) : Prop :=
  (∃ q, quals p.quals = some q) ∧ (∀ n bs, .lifetime n bs ∈ p.params → bs = []) ∧
  (∀ n ∈ names p.params, .named n ∈ p.output → .named n ∈ p.inputs.flatten) ∧ ∃ s, pointerSig p.inputs p.output = some s

/-- A lifetime of a method is bound late, so that the method can be used as a pointer that is generic in it: no bound has it, and it isn't in the output
only. -/
def Late (m : Method) (n : Nat) : Prop :=
  (∀ k bs, .lifetime k bs ∈ m.params → (k = n → bs = []) ∧ .named n ∉ bs) ∧ (∀ l ∈ m.bounded, .named n ∉ l) ∧
    (.named n ∈ m.output → .named n ∈ (match m.receiver with | .ref lt _ => [lt] | .other => []) ++ m.inputs.flatten)

/-- What convention Rust takes `extern` to be. -/
def rustConv : Abi → Option Conv
  | .none => none
  | .extern => some .cc
  | .named c => some c

/-- The methods whose field and whose pointer to the implementation are legal, and of which the implementation can be used as such a pointer. -/
def Compiles (m : Method) : Prop := ∃ f, readMethod m = some f ∧ Legal (pointer f) ∧ ∀ n ∈ names m.params, Late m n

/-! ### Theorems -/

theorem read_eq (m : Method) (f : DynFn) : readMethod m = some f ↔
    m.isAsync = false ∧ m.variadic = false ∧ (∀ g ∈ m.params, ∃ n bs, g = .lifetime n bs) ∧
    (∃ c lt mutable, rustConv m.abi = some c ∧ (∀ n, c ≠ .other n) ∧ m.receiver = .ref lt mutable ∧
      f = ⟨m.params, c, m.isUnsafe, lt, mutable, m.inputs, m.output⟩) := by
  have hp : (m.params.any fun g => !g.isLifetime) = false ↔ ∀ g ∈ m.params, ∃ n bs, g = .lifetime n bs := by
    rw [List.any_eq_false]
    apply forall_congr'
    intro g
    cases g <;> simp [GParam.isLifetime]
  have hc : ∀ c, conv m.abi = some c ↔ rustConv m.abi = some c ∧ ∀ n, c ≠ .other n := by
    intro c
    cases m.abi with
    | none => simp [conv, rustConv]
    | extern => simp only [conv, rustConv, Option.some.injEq, iff_self_and]; rintro rfl; simp
    | named d => 
      simp only [conv, rustConv]
      cases d <;> simp [accepted] <;> rintro rfl <;> simp
  unfold readMethod
  split
  · next h =>
    simp only [Bool.or_eq_true] at h
    simp only [reduceCtorEq, false_iff, ← hp]
    rintro ⟨h1, h2, h3, -⟩
    simp_all
  · next h =>
    simp only [Bool.or_eq_true, not_or, Bool.not_eq_true] at h
    simp only [Option.bind_eq_some_iff, ← hp, h, true_and]
    constructor
    · rintro ⟨c, h1, h2⟩
      split at h2
      · next lt mutable h3 => exact ⟨c, lt, mutable, ((hc c).1 h1).1, ((hc c).1 h1).2, h3, by simpa using h2.symm⟩
      · cases h2
    · rintro ⟨c, lt, mutable, h1, h2, h3, rfl⟩
      exact ⟨c, (hc c).2 ⟨h1, h2⟩, by rw [h3]⟩

/-- The methods that are accepted. -/
theorem C88_accepts (m : Method) : (∃ f, readMethod m = some f) ↔
    m.isAsync = false ∧ m.variadic = false ∧ (∀ g ∈ m.params, ∃ n bs, g = .lifetime n bs) ∧ (∃ lt mutable, m.receiver = .ref lt mutable) ∧
      ∃ c, rustConv m.abi = some c ∧ ∀ n, c ≠ .other n := by
  constructor
  · rintro ⟨f, h⟩
    obtain ⟨h1, h2, h3, c, lt, mutable, h4, h5, h6, -⟩ := (read_eq m f).1 h
    exact ⟨h1, h2, h3, ⟨lt, mutable, h6⟩, c, h4, h5⟩
  · rintro ⟨h1, h2, h3, ⟨lt, mutable, h6⟩, c, h4, h5⟩
    exact ⟨_, (read_eq m _).2 ⟨h1, h2, h3, c, lt, mutable, h4, h5, h6, rfl⟩⟩

/-- The lifetimes, the convention and the safety of a method of `{Trait}Dyn` are those of the trait's method. -/
theorem C88_dyn (m : Method) (f : DynFn) (h : readMethod m = some f) :
    (method f).params = m.params ∧ (method f).isUnsafe = m.isUnsafe ∧ rustConv (method f).abi = rustConv m.abi ∧ (method f).receiver = m.receiver ∧
    (method f).inputs = m.inputs ∧ (method f).output = m.output ∧ (method f).isAsync = m.isAsync ∧ (method f).variadic = m.variadic := by
  obtain ⟨h1, h2, h3, c, lt, mutable, h4, h5, h6, rfl⟩ := (read_eq m f).1 h
  exact ⟨rfl, rfl, h4.symm, h6.symm, rfl, rfl, h1.symm, h2.symm⟩

/-- Reading what is written for `{Trait}Dyn` is reading the method. -/
theorem C88_again (m : Method) (f : DynFn) (h : readMethod m = some f) : readMethod (method f) = some f := by
  obtain ⟨h1, h2, h3, c, lt, mutable, h4, h5, h6, rfl⟩ := (read_eq m f).1 h
  exact (read_eq _ _).2 ⟨rfl, rfl, h3, c, lt, mutable, rfl, h5, rfl, rfl⟩

theorem resIns_cons (lt : Lt) (inputs : List (List Lt)) : ∃ r, (resIns 0 ([lt] :: inputs)) = [r] :: resIns (if lt = .elided then 1 else 0) inputs ∧
    r = Lt.res 0 lt := by
  cases lt <;> exact ⟨_, rfl, rfl⟩

theorem resOut_congr (r r' : Res) (l : List Lt) (h : .elided ∉ l) : resOut r l = resOut r' l := by
  apply List.map_congr_left
  intro a ha
  cases a with
  | elided => exact absurd ha h
  | static => rfl
  | named => rfl

theorem dedup_single {α : Type} [DecidableEq α] (r : α) (l : List α) : (∃ x, (r :: l).dedup = [x]) ↔ ∀ a ∈ l, a = r := by
  constructor
  · rintro ⟨x, h⟩ a ha
    have h1 : a ∈ (r :: l).dedup := List.mem_dedup.2 (by simp [ha])
    have h2 : r ∈ (r :: l).dedup := List.mem_dedup.2 (by simp)
    rw [h] at h1 h2
    simp at h1 h2
    rw [h1, h2]
  · intro h
    refine ⟨r, ?_⟩
    induction l with
    | nil => rfl
    | cons a l ih =>
      have ha : a = r := h a (by simp)
      subst ha
      rw [List.dedup_cons_of_mem (by simp)]
      exact ih fun b hb => h b (by simp [hb])

/-- If a field has a meaning, its lifetimes are those of the method. -/
theorem C88_sig (lt : Lt) (inputs : List (List Lt)) (output : List Lt) (s : Sig) (h : pointerSig ([lt] :: inputs) output = some s) :
    s = methodSig lt inputs output := by
  obtain ⟨r, hr, -⟩ := resIns_cons lt inputs
  unfold pointerSig at h
  split at h
  · split at h
    · next x hx =>
      have := (dedup_single r _).1 ⟨x, by rw [hr] at hx; simpa using hx⟩
      have hxr : x = r := by
        have : r ∈ (resIns 0 ([lt] :: inputs)).flatten.dedup := List.mem_dedup.2 (by rw [hr]; simp)
        rw [hx] at this
        exact (List.mem_singleton.1 this).symm
      subst hxr
      cases h
      simp [methodSig, hr]
    · cases h
  · next hn =>
    cases h
    simp [methodSig, hr, resOut_congr _ r output hn]

theorem resIn_all : ∀ (l : List Lt) (n : Nat) (P : Res → Prop), (∀ r ∈ (resIn n l).1, P r) → ∀ a ∈ l, ∃ k, n ≤ k ∧ P (Lt.res k a)
  | [], _, _, _, a, ha => by cases ha
  | b :: l, n, P, h, a, ha => by
    rcases List.mem_cons.1 ha with rfl | ha'
    · refine ⟨n, Nat.le_refl _, ?_⟩
      cases a <;> exact h _ (by simp [resIn, Lt.res])
    · cases b with
      | elided =>
        obtain ⟨k, hk, hp⟩ := resIn_all l (n + 1) P (fun r hr => h r (by simp [resIn, hr])) a ha'
        exact ⟨k, by omega, hp⟩
      | static => exact resIn_all l n P (fun r hr => h r (by simp [resIn, hr])) a ha'
      | named m => exact resIn_all l n P (fun r hr => h r (by simp [resIn, hr])) a ha'

theorem resIn_ge : ∀ (l : List Lt) (n : Nat), n ≤ (resIn n l).2
  | [], _ => Nat.le_refl _
  | .elided :: l, n => Nat.le_trans (by omega) (resIn_ge l (n + 1))
  | .static :: l, n => resIn_ge l n
  | .named _ :: l, n => resIn_ge l n

theorem resIns_all : ∀ (ls : List (List Lt)) (n : Nat) (P : Res → Prop), (∀ r ∈ (resIns n ls).flatten, P r) → ∀ a ∈ ls.flatten, ∃ k, n ≤ k ∧ P (Lt.res k a)
  | [], _, _, _, a, ha => by simp at ha
  | l :: ls, n, P, h, a, ha => by
    simp only [List.flatten_cons, List.mem_append] at ha
    rcases ha with ha | ha
    · exact resIn_all l n P (fun r hr => h r (by simp [resIns, hr])) a ha
    · obtain ⟨k, hk, hp⟩ := resIns_all ls _ P (fun r hr => h r (by rw [resIns, List.flatten_cons, List.mem_append]; exact .inr hr)) a ha
      exact ⟨k, Nat.le_trans (resIn_ge l n) hk, hp⟩

theorem resIn_const (r : Res) (lt : Lt) (hlt : lt ≠ .elided) (hr : r = Lt.res 0 lt) :
    ∀ (l : List Lt) (n : Nat), (∀ a ∈ l, a = lt) → ∀ x ∈ (resIn n l).1, x = r
  | [], _, _, x, hx => by simp [resIn] at hx
  | a :: l, n, h, x, hx => by
    have ha : a = lt := h a (by simp)
    subst ha
    have ih := resIn_const r a hlt hr l n (fun b hb => h b (by simp [hb])) x
    cases a with
    | elided => exact absurd rfl hlt
    | static => simp only [resIn, List.mem_cons] at hx; rcases hx with rfl | hx; exacts [hr.symm, ih hx]
    | named m => simp only [resIn, List.mem_cons] at hx; rcases hx with rfl | hx; exacts [hr.symm, ih hx]

theorem resIns_const (r : Res) (lt : Lt) (hlt : lt ≠ .elided) (hr : r = Lt.res 0 lt) :
    ∀ (ls : List (List Lt)) (n : Nat), (∀ a ∈ ls.flatten, a = lt) → ∀ x ∈ (resIns n ls).flatten, x = r
  | [], _, _, x, hx => by simp [resIns] at hx
  | l :: ls, n, h, x, hx => by
    simp only [resIns, List.flatten_cons, List.mem_append] at hx
    rcases hx with hx | hx
    · exact resIn_const r lt hlt hr l n (fun b hb => h b (by simp [hb])) x hx
    · exact resIns_const r lt hlt hr ls _ (fun b hb => h b (by rw [List.flatten_cons, List.mem_append]; exact .inr hb)) x hx

/-- When a field has a meaning: the output says all its lifetimes, or the receiver's is the only one there is. -/
theorem C88_elision (lt : Lt) (inputs : List (List Lt)) (output : List Lt) : (∃ s, pointerSig ([lt] :: inputs) output = some s) ↔
    (.elided ∈ output → ∀ l ∈ inputs.flatten, l = lt ∧ lt ≠ .elided) := by
  obtain ⟨r, hr, hrl⟩ := resIns_cons lt inputs
  unfold pointerSig
  split
  · next hin =>
    simp only [hin, true_imp_iff]
    have hd := dedup_single r (resIns (if lt = .elided then 1 else 0) inputs).flatten
    have hfl : (resIns 0 ([lt] :: inputs)).flatten = r :: (resIns (if lt = .elided then 1 else 0) inputs).flatten := by rw [hr]; rfl
    rw [hfl]
    have hs : (∃ s, (match (r :: (resIns (if lt = .elided then 1 else 0) inputs).flatten).dedup with
        | [r] => some (Sig.mk (resIns 0 ([lt] :: inputs)) (resOut r output))
        | _ => none) = some s) ↔ ∃ x, (r :: (resIns (if lt = .elided then 1 else 0) inputs).flatten).dedup = [x] := by
      constructor
      · rintro ⟨s, h⟩
        split at h
        · next x hx => exact ⟨x, hx⟩
        · cases h
      · rintro ⟨x, hx⟩
        rw [hx]
        exact ⟨_, rfl⟩
    rw [hs, hd]
    constructor
    · intro h a ha
      obtain ⟨k, hk, hp⟩ := resIns_all inputs _ (· = r) h a ha
      rw [hrl] at hp
      cases lt with
      | elided =>
        simp only [if_true] at hk
        cases a <;> simp [Lt.res] at hp
        omega
      | static => cases a <;> simp [Lt.res] at hp ⊢
      | named m => cases a <;> simp [Lt.res] at hp ⊢; exact hp
    · intro h
      by_cases hlt : lt = .elided
      · have : inputs.flatten = [] := by
          cases hi : inputs.flatten with
          | nil => rfl
          | cons a l => exact absurd hlt (h a (by simp [hi])).2
        subst hlt
        intro x hx
        have hnil : ∀ (ls : List (List Lt)) (n : Nat), ls.flatten = [] → (resIns n ls).flatten = [] := by
          intro ls
          induction ls with
          | nil => intro n _; rfl
          | cons l ls ih =>
            intro n hl
            simp only [List.flatten_cons, List.append_eq_nil_iff] at hl
            rw [resIns, hl.1, List.flatten_cons, ih _ hl.2]
            rfl
        rw [hnil _ _ this] at hx
        cases hx
      · exact resIns_const r lt hlt hrl inputs _ fun a ha => (h a ha).1
  · next hin => simp [hin]

/-- The methods for which what is generated compiles, so far as their lifetimes, conventions and safety are concerned. -/
theorem C88_compiles (m : Method) (f : DynFn) (h : readMethod m = some f) : Compiles m ↔
    m.isUnsafe = false ∧ (∀ n bs, .lifetime n bs ∈ m.params → bs = [] ∧ (∀ l ∈ m.bounded, .named n ∉ l) ∧
      (.named n ∈ m.output → .named n ∈ f.lt :: m.inputs.flatten)) ∧
    (.elided ∈ m.output → ∀ l ∈ m.inputs.flatten, l = f.lt ∧ f.lt ≠ .elided) := by
  have hread := (read_eq m f).1 h
  obtain ⟨h1, h2, h3, c, lt, mutable, h4, h5, h6, rfl⟩ := hread
  have hn : ∀ n, n ∈ names m.params ↔ ∃ bs, .lifetime n bs ∈ m.params := by
    intro n
    simp only [names, List.mem_filterMap]
    constructor
    · rintro ⟨g, hg, hx⟩
      cases g <;> simp at hx
      subst hx
      exact ⟨_, hg⟩
    · rintro ⟨bs, hb⟩
      exact ⟨_, hb, rfl⟩
  have hq : (∃ q, quals (.extern c :: (if m.isUnsafe then [.unsafe_] else [])) = some q) ↔ m.isUnsafe = false := by
    cases m.isUnsafe <;> simp [quals]
  constructor
  · rintro ⟨f', hf', ⟨hl1, hl2, hl3, hl4⟩, hl5⟩
    rw [h] at hf'
    cases hf'
    simp only [pointer] at hl1 hl2 hl3 hl4
    refine ⟨hq.1 hl1, ?_, (C88_elision _ _ _).1 hl4⟩
    intro n bs hb
    exact ⟨hl2 n bs hb, (hl5 n ((hn n).2 ⟨bs, hb⟩)).2.1, by simpa using hl3 n ((hn n).2 ⟨bs, hb⟩)⟩
  · rintro ⟨hu, hb, he⟩
    refine ⟨_, h, ⟨hq.2 hu, fun n bs hm => (hb n bs hm).1, ?_, (C88_elision _ _ _).2 he⟩, ?_⟩
    · intro n hm
      obtain ⟨bs, hm⟩ := (hn n).1 hm
      simpa [pointer] using (hb n bs hm).2.2
    · intro n hm
      obtain ⟨bs, hm⟩ := (hn n).1 hm
      refine ⟨fun k bs' hk => ?_, (hb n bs hm).2.1, ?_⟩
      · rw [(hb k bs' hk).1]
        simp
      · rw [h6]
        simpa using (hb n bs hm).2.2

/-- What a vtable's field is when it has a meaning: the method's convention, and its lifetimes. -/
theorem C88_field_partial (m : Method) (f : DynFn) (h : readMethod m = some f) (hc : Compiles m) :
    (∃ c, rustConv m.abi = some c ∧ quals (pointer f).quals = some (m.isUnsafe, c)) ∧ (pointer f).params = m.params ∧
    pointerSig (pointer f).inputs (pointer f).output = some (methodSig f.lt m.inputs m.output) := by
  have hu := ((C88_compiles m f h).1 hc).1
  obtain ⟨f', hf', ⟨-, -, -, s, hs⟩, -⟩ := hc
  rw [h] at hf'
  cases hf'
  obtain ⟨h1, h2, h3, c, lt, mutable, h4, h5, h6, rfl⟩ := (read_eq m f).1 h
  refine ⟨⟨c, h4, by simp only [pointer, hu, Bool.false_eq_true, if_false]; rfl⟩, rfl, ?_⟩
  rw [hs, C88_sig _ _ _ s hs]
  rfl

/-- No `unsafe` method compiles, though the macro takes care to carry `unsafe` over: it is put after the convention. -/
theorem C88_unsafe_refuted (m : Method) (f : DynFn) (h : readMethod m = some f) (hu : m.isUnsafe = true) : quals (pointer f).quals = none ∧ ¬ Compiles m := by
  obtain ⟨h1, h2, h3, c, lt, mutable, h4, h5, h6, rfl⟩ := (read_eq m f).1 h
  refine ⟨by simp [pointer, hu, quals], fun hc => ?_⟩
  have := ((C88_compiles m _ h).1 hc).1
  simp [hu] at this

/-- Nor does one whose output borrows from `&self` without saying so, if there is any other lifetime in its parameters. -/
theorem C88_elided_refuted (m : Method) (f : DynFn) (h : readMethod m = some f) (ho : .elided ∈ m.output) (hr : f.lt = .elided) (hi : m.inputs.flatten ≠ []) :
    pointerSig (pointer f).inputs (pointer f).output = none ∧ ¬ Compiles m := by
  obtain ⟨a, ha⟩ := List.exists_mem_of_ne_nil _ hi
  have hno : ¬ (.elided ∈ m.output → ∀ l ∈ m.inputs.flatten, l = f.lt ∧ f.lt ≠ .elided) := fun he => (he ho a ha).2 hr
  constructor
  · cases hs : pointerSig (pointer f).inputs (pointer f).output with
    | none => rfl
    | some s =>
      obtain ⟨h1, h2, h3, c, lt, mutable, h4, h5, h6, rfl⟩ := (read_eq m f).1 h
      exact absurd ((C88_elision _ _ _).1 ⟨s, hs⟩) hno
  · exact fun hc => hno ((C88_compiles m f h).1 hc).2.2

/-- Nor does one whose lifetimes have bounds, with the parameters or in a `where` clause. -/
theorem C88_bounds_refuted (m : Method) (f : DynFn) (h : readMethod m = some f) (n : Nat) (bs : List Lt) (hn : .lifetime n bs ∈ m.params)
    (hb : bs ≠ [] ∨ ∃ l ∈ m.bounded, .named n ∈ l) : ¬ Compiles m := by
  intro hc
  have := ((C88_compiles m f h).1 hc).2.1 n bs hn
  rcases hb with hb | ⟨l, hl, hx⟩
  · exact hb this.1
  · exact this.2.1 l hl hx

/-! ### Examples -/

/-- `extern "C" fn f<'a>(&'a self, x: &u8, y: &'a u8) -> &'a u8` -/
def exM : Method := ⟨false, false, false, .named .cc, [.lifetime 0 []], .ref (.named 0) false, [[.elided], [.named 0]], [.named 0], []⟩

/-- `extern fn g(&mut self, x: u8) -> &u8` -/
def exG : Method := ⟨false, false, false, .extern, [], .ref .elided true, [[]], [.elided], []⟩

/-- `extern "C" fn get(&self, key: &u8) -> &u8` -/
def exGet : Method := ⟨false, false, false, .named .cc, [], .ref .elided false, [[.elided]], [.elided], []⟩

example : readMethod exM = some ⟨[.lifetime 0 []], .cc, false, .named 0, false, [[.elided], [.named 0]], [.named 0]⟩ := by decide

example : Compiles exM := by
  rw [C88_compiles exM _ rfl]
  refine ⟨rfl, ?_, by decide⟩
  intro n bs h
  simp only [exM, List.mem_singleton, GParam.lifetime.injEq] at h
  obtain ⟨rfl, rfl⟩ := h
  decide

example : Compiles exG := by
  rw [C88_compiles exG _ rfl]
  exact ⟨rfl, by simp [exG], by decide⟩

example : ¬ Compiles exGet ∧ (∃ f, readMethod exGet = some f) := ⟨(C88_elided_refuted exGet _ rfl (by decide) rfl (by decide)).2, _, rfl⟩

example : methodSig .elided [[.elided]] [.elided] = ⟨[[.fresh 0], [.fresh 1]], [.fresh 0]⟩ ∧ pointerSig [[.elided], [.elided]] [.elided] = none ∧
    pointerSig [[.named 3], [.named 3]] [.elided, .static] = some ⟨[[.named 3], [.named 3]], [.named 3, .static]⟩ := by decide

example : ¬ Compiles { exG with isUnsafe := true } := (C88_unsafe_refuted _ _ rfl rfl).2

example : ¬ Compiles { exM with bounded := [[.named 0, .static]] } := C88_bounds_refuted _ _ rfl 0 [] (by decide) (.inr ⟨[.named 0, .static], by decide, by decide⟩)

end Verif.Props.Methods
