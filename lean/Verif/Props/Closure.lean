import Verif.Dyn.Closure
/-! C113: closures called through trait objects.

The specification is what Rust has for `P<dyn Fn(..)>`: which methods can be called through which pointer, and what happens when a closure is
called directly, any number of times, by a caller that catches what unwinds. -/
set_option linter.unusedSimpArgs false
namespace Verif.Props.Closure
open Verif.Dyn.Closure

/-- Calling the closure directly, and catching what unwinds. -/
def directly {σ V : Type} (f : Body σ V) : σ → List (List V) → List (Event σ V)
  | _, [] => []
  | s, vals :: rest =>
    (match (f s vals).2 with
      | some r => Event.returned s vals r
      | none => Event.unwound s vals) :: directly f (f s vals).1 rest

/-- What becomes of a list of observations when the first call that unwinds stops the process. -/
def stopped {σ V : Type} : List (Event σ V) → List (Event σ V)
  | [] => []
  | .returned s g r :: es => .returned s g r :: stopped es
  | .unwound s g :: _ => [.aborted s g]
  | .aborted s g :: _ => [.aborted s g]

/-- A type that the code around the signature could name. -/
def InScope : Ty → Prop
  | .named _ => True
  | .ref (.outer _) t => InScope t
  | .ref (.bound _) _ => False
  | .pair a b => InScope a ∧ InScope b

/-- Which methods can be called on `&dyn F`, `&mut dyn F`, `Box<dyn F>` and `Arc<dyn F>` in Rust: a closure that can be called by shared reference can
be called by exclusive reference, and one that can be called by reference can be called by value. -/
def inRust : Ptr → Kind → Kind → Prop
  | .ref, vt, _ => vt = .shared
  | .arc, vt, _ => vt = .shared
  | .refMut, vt, m => vt = .shared ∨ (vt = .exclusive ∧ m ≠ .shared)
  | .box _, vt, m => vt = .shared ∨ (vt = .exclusive ∧ m ≠ .shared) ∨ m = .once

theorem inScope_iff : ∀ t : Ty, InScope t ↔ t.binds = false
  | .named _ => by simp [InScope, Ty.binds]
  | .ref (.outer _) t => by simp [InScope, Ty.binds, inScope_iff t]
  | .ref (.bound _) _ => by simp [InScope, Ty.binds]
  | .pair a b => by simp [InScope, Ty.binds, inScope_iff a, inScope_iff b]

theorem lookup_zip {V : Type} : ∀ (k : Nat) (vals : List V) (i : Nat) (h : i < vals.length),
    ((List.range' k vals.length).zip vals).lookup (k + i) = some vals[i]
  | _, [], _, h => by simp at h
  | k, v :: vs, 0, _ => by simp [List.range'_succ]
  | k, v :: vs, i + 1, h => by
    have ih := lookup_zip (k + 1) vs i (by simpa using h)
    simp only [List.length_cons, List.range'_succ, List.zip_cons_cons, List.lookup]
    have : (k + (i + 1) == k) = false := by simp
    rw [this]
    simp only
    rw [show k + (i + 1) = k + 1 + i by omega, ih]
    simp

theorem mapM_lookup {V : Type} (vals : List V) (n : Nat) (h : n ≤ vals.length) :
    (List.range n).mapM (fun x => ((List.range vals.length).zip vals).lookup x) = some (vals.take n) := by
  induction n with
  | zero => simp
  | succ n ih =>
    have e := lookup_zip 0 vals n (by omega)
    rw [Nat.zero_add, ← List.range_eq_range'] at e
    rw [List.range_succ, List.mapM_append, ih (by omega)]
    have g : vals[n]? = some vals[n] := List.getElem?_eq_getElem _
    rw [List.take_add_one, g]
    simp only [List.mapM_cons, List.mapM_nil, e, Option.toList_some]
    rfl

theorem forward_range {V : Type} (vals : List V) : forward (List.range vals.length) (List.range vals.length) vals = some vals := by
  unfold forward
  rw [if_pos ⟨by simp, List.nodup_range⟩, mapM_lookup vals _ (Nat.le_refl _), List.take_length]

theorem passed_range (n : Nat) : dynPassed n = List.range n := by
  have : ∀ (l r : List Nat), l.foldl (fun r i => r ++ [i]) r = r ++ l := by
    intro l
    induction l with
    | nil => simp
    | cons a l ih => intro r; simp [ih]
  simpa [dynPassed] using this (List.range n) []

/-- **C113.** The closure is given the values that the method of the object was called with, in their order, however many. -/
theorem C113_arguments {V : Type} (m : Kind) (vals : List V) : received m vals = some vals := by
  cases m <;> simp [received, dynParams, passed_range, args, forward_range]

/-- Three values, through a boxed `FnOnce`. -/
example : received .once [3, 5, 7] = some [3, 5, 7] := by decide

/-- The same holds for the methods of all traits, for they are generated the same way: what the function of the vtable is called with. -/
theorem C113_methods {V : Type} (vals : List V) : forward (dynParams vals.length) (dynPassed vals.length) vals = some vals := by
  simp [dynParams, passed_range, forward_range]

example : forward (dynParams 2) (dynPassed 2) ["a", "b"] = some ["a", "b"] := by decide

/-- **C113.** Any sequence of calls through an object has the effects and the results of the same calls of the closure, up to the first call that
unwinds, which stops the process.  (For `FnMut` and `Fn`.) -/
theorem C113_calls {σ V : Type} (m : Kind) (hm : m ≠ .once) (f : Body σ V) : ∀ (s : σ) (calls : List (List V)),
    throughObject m f s calls = some (stopped (directly f s calls))
  | s, [] => by simp [throughObject, directly, stopped]
  | s, vals :: rest => by
    simp only [throughObject, C113_arguments, Option.bind_some, directly]
    rcases h : f s vals with ⟨s', _ | r⟩
    · simp [stopped]
    · simp [stopped, hm, C113_calls m hm f s' rest]

/-- **C113.** A boxed `FnOnce` is called with the values and gives its result; unwinding stops the process. -/
theorem C113_call_once {σ V : Type} (f : Body σ V) (s : σ) (vals : List V) :
    throughObject .once f s [vals] = some (stopped (directly f s [vals])) := by
  simp only [throughObject, C113_arguments, Option.bind_some, directly]
  rcases h : f s vals with ⟨s', _ | r⟩ <;> simp [stopped, throughObject]

/-- **C113, partial.** Calls through objects cannot be told from direct calls if no call unwinds.  Missing because false: see
`C113_unwinding_refuted`. -/
theorem C113_same_partial {σ V : Type} (m : Kind) (hm : m ≠ .once) (f : Body σ V) (s : σ) (calls : List (List V))
    (quiet : ∀ s' vals, Event.unwound s' vals ∉ directly f s calls) : throughObject m f s calls = some (directly f s calls) := by
  rw [C113_calls m hm]
  congr 1
  induction calls generalizing s with
  | nil => rfl
  | cons vals rest ih =>
    simp only [directly, List.mem_cons, not_or] at quiet ⊢
    rcases h : (f s vals).2 with _ | r
    · exact absurd (by simp [h]) (quiet s vals).1
    · simp only [stopped]
      rw [ih _ (fun s' v => (quiet s' v).2)]

/-- A closure that adds what it is given to a counter and returns it; it panics above 10. -/
def counter : Body Nat Nat := fun s vals => (s + vals.sum, if s + vals.sum > 10 then none else some (s + vals.sum))

example : throughObject .exclusive counter 0 [[1, 2], [4]] = some [.returned 0 [1, 2] 3, .returned 3 [4] 7] := by decide
example : ∀ s' vals, Event.unwound s' vals ∉ directly counter 0 [[1, 2], [4]] := by simp [directly, counter]

/-- **C113, refuted part.** A caller that catches panics sees them when it calls the closure, and goes on; through the object the process is
stopped. -/
theorem C113_unwinding_refuted : ∃ f : Body Nat Nat, ∃ calls,
    directly f 0 calls = [.returned 0 [8] 8, .unwound 8 [9], .unwound 17 [0]] ∧
    throughObject .exclusive f 0 calls = some [.returned 0 [8] 8, .aborted 8 [9]] :=
  ⟨counter, [[8], [9], [0]], by decide, by decide⟩

/-- **C113.** Which methods can be called, exactly. -/
theorem C113_callable_iff (feature : Bool) (p : Ptr) (vt m : Kind) :
    callable feature p vt m = true ↔ m = vt ∧ inRust p vt m ∧ (m = .once → p = .box true ∧ feature = true) := by
  cases m <;> cases vt <;> rcases p with _ | _ | (_ | _) | _ <;> cases feature <;> simp [callable, inRust, Ptr.isMut]

/-- A boxed `FnMut`. -/
example : callable false (.box false) .exclusive .exclusive = true := by decide

/-- **C113, partial.** The method of an object's own family can be called whenever Rust has it, except for `FnOnce` in boxes of another allocator or without
the feature `alloc-rs`. -/
theorem C113_own_method_partial (p : Ptr) (k : Kind) (h : p ≠ .box false ∨ k ≠ .once) : callable true p k k = true ↔ inRust p k k := by
  cases k <;> rcases p with _ | _ | (_ | _) | _ <;> simp_all [callable, inRust, Ptr.isMut]

/-- **C113, refuted part.** Objects of `Fn` cannot be called as `FnMut` or `FnOnce`, nor those of `FnMut` as `FnOnce` (super-traits are not taken
into account); a boxed `FnOnce` in another allocator cannot be called at all, and without `alloc-rs` none can, though boxes are there. -/
theorem C113_missing_refuted :
    (∀ feature p vt m, vt ≠ m → callable feature p vt m = false) ∧
    (inRust (.box true) .shared .exclusive ∧ inRust (.box true) .shared .once ∧ inRust (.box true) .exclusive .once) ∧
    (inRust (.box false) .once .once ∧ ∀ m, callable true (.box false) .once m = false) ∧
    (inRust (.box true) .once .once ∧ ∀ p m, callable false p .once m = false) := by
  refine ⟨fun feature p vt m h => ?_, by simp [inRust], ⟨by simp [inRust], fun m => ?_⟩, by simp [inRust], fun p m => ?_⟩
  · cases vt <;> cases m <;> simp_all [callable]
  · cases m <;> rfl
  · cases m <;> simp [callable]

/-- **C113.** There is a vtable for exactly the signatures with at most nine arguments in which no lifetime is bound by the signature. -/
theorem C113_signatures (s : Sig) :
    hasVt s = true ↔ s.inputs.length ≤ 9 ∧ ∃ θ : Nat → Ty, ∃ o, (∀ i < s.inputs.length, InScope (θ i)) ∧ InScope o ∧ s = headerAt s.inputs.length θ o := by
  have inputs : ∀ θ : Nat → Ty, (∀ i, i < s.inputs.length → s.inputs[i]? = some (θ i)) → (List.range s.inputs.length).map θ = s.inputs := by
    intro θ h
    apply List.ext_getElem?
    intro i
    by_cases hi : i < s.inputs.length
    · rw [h i hi]; simp [hi]
    · simp [hi]
  simp only [hasVt, Bool.and_eq_true, List.all_eq_true, Bool.not_eq_true', List.contains_iff_mem, arities, List.mem_range, headerAt, argtys]
  constructor
  · rintro ⟨⟨hl, hi⟩, ho⟩
    refine ⟨by omega, fun i => (s.inputs[i]?).getD (.named 0), s.output, fun i h => ?_, (inScope_iff _).mpr ho, ?_⟩
    · rw [inScope_iff]
      simp only [List.getElem?_eq_getElem h, Option.getD_some]
      exact hi _ (List.getElem_mem h)
    · rw [inputs _ (fun i h => by simp [List.getElem?_eq_getElem h])]
  · rintro ⟨hl, θ, o, hi, ho, e⟩
    have e1 : s.inputs = (List.range s.inputs.length).map θ := congrArg Sig.inputs e
    have e2 : s.output = o := congrArg Sig.output e
    refine ⟨⟨by omega, fun t ht => ?_⟩, e2 ▸ (inScope_iff _).mp ho⟩
    rw [e1, List.mem_map] at ht
    obtain ⟨i, hir, rfl⟩ := ht
    exact (inScope_iff _).mp (hi i (List.mem_range.mp hir))

/-- `Fn(u8, &'a u8) -> u8`. -/
example : hasVt ⟨[.named 0, .ref (.outer 0) (.named 0)], .named 0⟩ = true := by decide

/-- **C113, refuted part.** `Fn(&u8) -> u8`, whose argument may have any lifetime, has no vtable, nor has a function of ten arguments. -/
theorem C113_signatures_refuted : hasVt ⟨[.ref (.bound 0) (.named 0)], .named 0⟩ = false ∧ ∀ o, hasVt ⟨List.replicate 10 (.named 0), o⟩ = false := by
  refine ⟨by decide, fun o => ?_⟩
  simp [hasVt, arities]

/-- **C113.** Each family has a trait, a vtable and a trait of objects for 0 to 9 arguments, `FnOnce` with the feature `alloc-rs` only, and no name is
exported twice. -/
theorem C113_exported (feature : Bool) : (exported feature).Nodup ∧
    ∀ i k, (Exported.trait k i ∈ exported feature ↔ i ≤ 9 ∧ (k = .once → feature = true)) ∧
      (Exported.vtable k i ∈ exported feature ↔ i ≤ 9 ∧ (k = .once → feature = true)) ∧
      (Exported.dyn k i ∈ exported feature ↔ i ≤ 9 ∧ (k = .once → feature = true)) ∧
      (Exported.dynMut k i ∈ exported feature ↔ i ≤ 9 ∧ k ≠ .once) := by
  refine ⟨by cases feature <;> decide +kernel, fun i k => ?_⟩
  simp only [exported, List.mem_flatMap, arities, List.mem_range, exportedAt]
  refine ⟨⟨?_, ?_⟩, ⟨?_, ?_⟩, ⟨?_, ?_⟩, ⟨?_, ?_⟩⟩
  all_goals first
    | (rintro ⟨j, hj, h⟩
       cases feature <;> simp at h <;> rcases h with ⟨rfl, rfl⟩ | ⟨rfl, rfl⟩ | ⟨rfl, rfl⟩ <;> simp <;> omega)
    | (rintro ⟨j, hj, h⟩
       cases feature <;> simp at h <;> rcases h with ⟨rfl, rfl⟩ | ⟨rfl, rfl⟩ <;> simp <;> omega)
    | (rintro ⟨h9, h⟩
       refine ⟨i, by omega, ?_⟩
       cases feature <;> cases k <;> simp_all)

end Verif.Props.Closure
