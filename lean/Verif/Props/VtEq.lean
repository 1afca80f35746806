import Verif.Dyn.Equality

/-! C68: equality of vtables and the downcasts that are based on it. -/
namespace Verif.Props.VtEq
open Verif.Dyn Verif.Dyn.Equality

/-- **C68.** Two vtables are equal exactly if they are the same object: the comparison of the functions of traits has no influence. -/
theorem C68_identity (arity : Nat → Nat) (mem : Nat → Option Nat) (vt : Vt) (a b : Nat) : vtEq arity mem vt a b = true ↔ a = b := by
  induction vt with
  | drop => simp [vtEq]
  | send t ih => simpa [vtEq] using ih
  | sync t ih => simpa [vtEq] using ih
  | table h t ih =>
    simp only [vtEq, Bool.and_eq_true, ih]
    constructor
    · exact fun e => e.1
    · rintro rfl
      exact ⟨rfl, by simp⟩

/-- **C68.** Equality of vtables is an equivalence (`Eq` is derived), and equal vtables have equal hashes. -/
theorem C68_equivalence (arity : Nat → Nat) (mem : Nat → Option Nat) (vt : Vt) (a b c : Nat) :
    vtEq arity mem vt a a = true ∧ (vtEq arity mem vt a b = vtEq arity mem vt b a) ∧
    (vtEq arity mem vt a b = true → vtEq arity mem vt b c = true → vtEq arity mem vt a c = true) ∧
    (vtEq arity mem vt a b = true → vtHash arity mem vt a = vtHash arity mem vt b) := by
  refine ⟨(C68_identity ..).mpr rfl, ?_, ?_, ?_⟩
  · rw [Bool.eq_iff_iff, C68_identity, C68_identity]
    exact eq_comm
  · simp only [C68_identity]
    exact fun h1 h2 => h1.trans h2
  · rw [C68_identity]
    rintro rfl
    rfl

/-- **C68, refuted part.** A copy of a vtable, or another vtable with the same functions, is not equal to it, although their hashes agree. -/
theorem C68_copy_refuted (arity : Nat → Nat) (mem : Nat → Option Nat) (vt : Vt) (a b : Nat) (hab : a ≠ b)
    (same : ∀ i < size arity vt, mem (a + i) = mem (b + i)) :
    vtEq arity mem vt a b = false ∧ vtHash arity mem vt a = vtHash arity mem vt b := by
  constructor
  · rw [← Bool.not_eq_true, C68_identity]
    exact hab
  · induction vt with
    | drop => simpa [vtHash] using same 0 (by simp [size])
    | send t ih => exact ih same
    | sync t ih => exact ih same
    | table h t ih =>
      simp only [vtHash]
      rw [ih (fun i hi => same i (by simp only [size]; omega))]
      congr 1
      apply List.map_congr_left
      intro i hi
      have := same (size arity t + i) (by have := List.mem_range.mp hi; simp only [size]; omega)
      rw [← Nat.add_assoc, ← Nat.add_assoc] at this
      exact this

/-- **C68.** The hash of a vtable is that of the functions in it, in order. -/
theorem C68_hash (arity : Nat → Nat) (mem : Nat → Option Nat) (vt : Vt) (a : Nat) :
    vtHash arity mem vt a = (List.range (size arity vt)).map (fun i => mem (a + i)) := by
  induction vt with
  | drop => simp [vtHash, size, List.range_succ]
  | send t ih => simpa [vtHash, size] using ih
  | sync t ih => simpa [vtHash, size] using ih
  | table h t ih =>
    simp only [vtHash, size, ih, List.range_add, List.map_append, List.map_map]
    congr 1
    apply List.map_congr_left
    intro i _
    simp [Nat.add_assoc]

/-! ### The registry -/

theorem lookup_mem {r : Reg} {ws : List Nat} {a : Nat} (h : r.lookup ws = some a) : (ws, a) ∈ r := by
  induction r with
  | nil => cases h
  | cons e r ih =>
    obtain ⟨w, b⟩ := e
    rw [List.lookup_cons] at h
    split at h
    · rename_i he
      rw [beq_iff_eq.mp he]
      cases h
      exact .head _
    · exact .tail _ (ih h)

theorem lookup_none {r : Reg} {ws : List Nat} (h : r.lookup ws = none) : ∀ e ∈ r, e.1 ≠ ws := by
  induction r with
  | nil => intro e he; cases he
  | cons e r ih =>
    obtain ⟨w, b⟩ := e
    rw [List.lookup_cons] at h
    split at h
    · cases h
    · rename_i he
      intro e' he'
      rcases List.mem_cons.mp he' with rfl | he'
      · simp only
        intro e
        simp [e] at he
      · exact ih h e' he'

/-- A registry has one entry per contents, at different addresses. -/
def RegOk (r : Reg) : Prop := ∀ e ∈ r, ∀ e' ∈ r, e.1 = e'.1 ↔ e.2 = e'.2

theorem intern_ok {r : Reg} (h : RegOk r) (ws : List Nat) {fresh : Nat} (hf : ∀ e ∈ r, e.2 ≠ fresh) :
    RegOk (intern r ws fresh).2 ∧ (ws, (intern r ws fresh).1) ∈ (intern r ws fresh).2 ∧ ∀ e ∈ r, e ∈ (intern r ws fresh).2 := by
  unfold intern
  split
  · rename_i a ha
    exact ⟨h, lookup_mem ha, fun e he => he⟩
  · rename_i hn
    refine ⟨?_, .head _, fun e he => .tail _ he⟩
    intro e he e' he'
    rcases List.mem_cons.mp he with rfl | he <;> rcases List.mem_cons.mp he' with rfl | he'
    · simp
    · exact ⟨fun x => absurd x.symm (lookup_none hn e' he'), fun x => absurd x.symm (hf e' he')⟩
    · exact ⟨fun x => absurd x (lookup_none hn e he), fun x => absurd x (hf e he)⟩
    · exact h e he e' he'

theorem reach_ok {arity : Nat → Nat} {code : Fn → Nat} {r : Reg} {os : List TObj} (h : Reach arity code r os) :
    RegOk r ∧ ∀ o ∈ os, (words arity code o.ty o.made, o.vtable) ∈ r := by
  induction h with
  | empty => exact ⟨fun e he => by simp at he, fun o ho => by simp at ho⟩
  | make ty vt fresh _ hf ih =>
    obtain ⟨h1, h2, h3⟩ := intern_ok ih.1 (words arity code ty vt) hf
    refine ⟨h1, fun o ho => ?_⟩
    rcases List.mem_cons.mp ho with rfl | ho
    · exact h2
    · exact h3 _ (ih.2 o ho)
  | @toSuper r os o vt _ ho _ ih =>
    refine ⟨ih.1, fun o' ho' => ?_⟩
    rcases List.mem_cons.mp ho' with rfl | ho'
    · exact ih.2 o ho
    · exact ih.2 o' ho'
  | @downcast r os o ty fresh _ ho hf ih =>
    obtain ⟨h1, h2, h3⟩ := intern_ok ih.1 (words arity code ty o.vty) hf
    exact ⟨h1, fun o' ho' => h3 _ (ih.2 o' ho')⟩

/-- **C68.** When a downcast succeeds: exactly if the vtable that the object was made with has the same words as the vtable of the target type for the
current bounds. -/
theorem C68_downcast (arity : Nat → Nat) (code : Fn → Nat) (r : Reg) (os : List TObj) (h : Reach arity code r os) (o : TObj) (ho : o ∈ os) (ty fresh : Nat)
    (hf : ∀ e ∈ r, e.2 ≠ fresh) :
    (downcast arity code r o ty fresh).1 = true ↔ words arity code o.ty o.made = words arity code ty o.vty := by
  obtain ⟨h1, h2⟩ := reach_ok h
  obtain ⟨g1, g2, g3⟩ := intern_ok h1 (words arity code ty o.vty) hf
  unfold downcast
  simp only
  rw [C68_identity]
  exact (g1 _ (g3 _ (h2 o ho)) _ g2).symm

theorem words_length (arity : Nat → Nat) (code : Fn → Nat) (ty : Nat) (vt : Vt) : (words arity code ty vt).length = size arity vt := by
  unfold words
  rw [List.length_map]
  induction vt with
  | drop => rfl
  | send t ih => exact ih
  | sync t ih => exact ih
  | table h t ih => simp [slots, size, ih]

theorem words_head (arity : Nat → Nat) (code : Fn → Nat) (ty : Nat) (vt : Vt) : (words arity code ty vt)[0]? = some (code (.drop ty)) := by
  unfold words
  induction vt with
  | drop => rfl
  | send t ih => exact ih
  | sync t ih => exact ih
  | table h t ih =>
    rw [slots, List.map_append, List.getElem?_append_left]
    · exact ih
    · have := words_length arity code ty t
      unfold words at this
      rw [this]
      clear this ih
      induction t with
      | drop => simp [size]
      | send t ih => exact ih
      | sync t ih => exact ih
      | table h t ih => simp only [size]; omega

/-- **C68.** A downcast that succeeds is right, unless the linker merged the destructors of the two types. -/
theorem C68_sound (arity : Nat → Nat) (code : Fn → Nat) (r : Reg) (os : List TObj) (h : Reach arity code r os) (o : TObj) (ho : o ∈ os) (ty fresh : Nat)
    (hf : ∀ e ∈ r, e.2 ≠ fresh) (hd : (downcast arity code r o ty fresh).1 = true) :
    code (.drop o.ty) = code (.drop ty) ∧ ((∀ x y, code (.drop x) = code (.drop y) → x = y) → o.ty = ty) := by
  have e := (C68_downcast arity code r os h o ho ty fresh hf).mp hd
  have e0 : code (.drop o.ty) = code (.drop ty) := by
    have := congrArg (·[0]?) e
    simpa only [words_head, Option.some.injEq] using this
  exact ⟨e0, fun inj => inj _ _ e0⟩

/-- **C68.** Within a shared object that has a registry, an object that was not converted can be downcast to its type. -/
theorem C68_complete_partial (arity : Nat → Nat) (code : Fn → Nat) (r : Reg) (os : List TObj) (h : Reach arity code r os) (o : TObj) (ho : o ∈ os)
    (fresh : Nat) (hf : ∀ e ∈ r, e.2 ≠ fresh) (hs : words arity code o.ty o.made = words arity code o.ty o.vty) :
    (downcast arity code r o o.ty fresh).1 = true :=
  (C68_downcast arity code r os h o ho _ fresh hf).mpr hs

/-- **C68, refuted part.** Once a trait with methods was removed from a trait object by `into_super`, it cannot be downcast to any type, not even to its own. -/
theorem C68_super_refuted (arity : Nat → Nat) (code : Fn → Nat) (r : Reg) (os : List TObj) (h : Reach arity code r os) (o : TObj) (ho : o ∈ os) (ty fresh : Nat)
    (hf : ∀ e ∈ r, e.2 ≠ fresh) (hs : size arity o.vty < size arity o.made) : (downcast arity code r o ty fresh).1 = false := by
  rw [← Bool.not_eq_true, C68_downcast arity code r os h o ho ty fresh hf]
  intro e
  have := congrArg List.length e
  rw [words_length, words_length] at this
  omega

theorem super_size {arity : Nat → Nat} {vt vt' : Vt} (h : Super vt vt') (ty : Nat) :
    slots arity ty vt = slots arity ty vt' ∨ ∃ t, slots arity ty vt = slots arity ty vt' ++ (List.range (arity t)).map (Fn.method ty t) := by
  cases h <;> first | exact .inl rfl | exact .inr ⟨_, rfl⟩

/-- **C68.** Removing `Send` and `Sync`, or a trait without methods, does not affect downcasts; removing a trait with methods does. -/
theorem C68_super (arity : Nat → Nat) (code : Fn → Nat) {vt vt' : Vt} (h : Super vt vt') (ty : Nat) :
    words arity code ty vt = words arity code ty vt' ↔ size arity vt = size arity vt' := by
  constructor
  · intro e
    rw [← words_length arity code ty, ← words_length arity code ty, e]
  · intro e
    unfold words
    rcases super_size (arity := arity) h ty with hs | ⟨t, hs⟩
    · rw [hs]
    · have h1 := words_length arity code ty vt
      have h2 := words_length arity code ty vt'
      unfold words at h1 h2
      rw [List.length_map] at h1 h2
      have : arity t = 0 := by
        have := congrArg List.length hs
        rw [List.length_append, List.length_map, List.length_range] at this
        omega
      rw [hs, this]
      simp

/-- **C68.** A vtable of another registry (of another shared object) is never equal to one of this registry, as the documentation says. -/
theorem C68_ffi (arity : Nat → Nat) (code : Fn → Nat) (r : Reg) (o : TObj) (ty fresh : Nat) (hr : ∀ e ∈ r, e.2 ≠ o.vtable) (hf : fresh ≠ o.vtable) :
    (downcast arity code r o ty fresh).1 = false := by
  rw [← Bool.not_eq_true]
  unfold downcast
  simp only
  rw [C68_identity]
  unfold intern
  split
  · rename_i a ha
    exact fun e => hr _ (lookup_mem ha) e.symm
  · exact fun e => hf e.symm

/-! ### Examples -/

/-- Each trait has one method. -/
def one : Nat → Nat := fun _ => 1

/-- The linker merged nothing. -/
def distinct : Fn → Nat
  | .drop ty => 3 * ty
  | .method ty t i => 3 * (Nat.pair' ty (Nat.pair' t i)) + 1
where Nat.pair' (a b : Nat) : Nat := 2 ^ a * (2 * b + 1)

/-- A `dyn Trait7 + Send` made from the type 4. -/
def exObj : TObj := ⟨4, .send (.table 7 .drop), .send (.table 7 .drop), 1000⟩

theorem exReach : Reach one distinct [(words one distinct 4 (.send (.table 7 .drop)), 1000)] [exObj] :=
  .make 4 (.send (.table 7 .drop)) 1000 .empty (fun _ h => by simp at h)

/-- It can be downcast to type 4, not to type 5; after `Send` was removed too; after the trait was removed it cannot. -/
example : (downcast one distinct [(words one distinct 4 (.send (.table 7 .drop)), 1000)] exObj 4 2000).1 = true ∧
    (downcast one distinct [(words one distinct 4 (.send (.table 7 .drop)), 1000)] exObj 5 2000).1 = false ∧
    (downcast one distinct [(words one distinct 4 (.send (.table 7 .drop)), 1000)] (toSuper exObj (.table 7 .drop)) 4 2000).1 = true ∧
    (downcast one distinct [(words one distinct 4 (.send (.table 7 .drop)), 1000)] (toSuper exObj (.send .drop)) 4 2000).1 = false := by
  decide

example : Super exObj.vty (.send .drop) ∧ size one (.send .drop) < size one exObj.made := ⟨.send_keep _ _, by decide⟩

end Verif.Props.VtEq
