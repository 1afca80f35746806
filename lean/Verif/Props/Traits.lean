import Verif.Macros.Traits

/-! C65, C66: the vtables that `#[stabby] trait` generates. -/
namespace Verif.Props.Traits
open Verif.Macros.Traits

/-! ### Specifications -/

mutual

/-- The type, with the parameter `_stabby_unselfed_n` of the vtable instantiated by `σ n`. -/
def inst (σ : Nat → Ty) : Ty → Ty
  | .never => .never
  | .unit => .unit
  | .arbitrary p n => .arbitrary p (inst σ n)
  | .selfRef t => .selfRef t
  | .reference l m e => .reference l m (inst σ e)
  | .ptr c m e => .ptr c m (inst σ e)
  | .array e n => .array (inst σ e) n
  | .bareFn l u a i o => .bareFn l u a (instTys σ i) (inst σ o)
  | .path (.unselfed n) .none .none => σ n
  | .path g a n => .path g (instArgs σ a) (instO σ n)
  | .leadingColon n => .leadingColon (inst σ n)
  | .qualified t a n => .qualified (inst σ t) (inst σ a) (inst σ n)

def instO (σ : Nat → Ty) : OTy → OTy
  | .none => .none
  | .some t => .some (inst σ t)

def instTys (σ : Nat → Ty) : Tys → Tys
  | .nil => .nil
  | .cons t ts => .cons (inst σ t) (instTys σ ts)

def instArgs (σ : Nat → Ty) : Args → Args
  | .none => .none
  | .angle gs => .angle (instGens σ gs)

def instGens (σ : Nat → Ty) : Gens → Gens
  | .nil => .nil
  | .lifetime l gs => .lifetime l (instGens σ gs)
  | .type t gs => .type (inst σ t) (instGens σ gs)
  | .other k gs => .other k (instGens σ gs)

end

mutual

/-- The user did not write an identifier `_stabby_unselfed_n` outside of `Self::..`. -/
def User : Ty → Prop
  | .never => True
  | .unit => True
  | .arbitrary _ n => User n
  | .selfRef _ => True
  | .reference _ _ e => User e
  | .ptr _ _ e => User e
  | .array e _ => User e
  | .bareFn _ _ _ i o => UserTys i ∧ User o
  | .path g a n => (∀ k, g ≠ .unselfed k) ∧ UserArgs a ∧ UserO n
  | .leadingColon n => User n
  | .qualified t a n => User t ∧ User a ∧ User n

def UserO : OTy → Prop
  | .none => True
  | .some t => User t

def UserTys : Tys → Prop
  | .nil => True
  | .cons t ts => User t ∧ UserTys ts

def UserArgs : Args → Prop
  | .none => True
  | .angle gs => UserGens gs

def UserGens : Gens → Prop
  | .nil => True
  | .lifetime _ gs => UserGens gs
  | .type t gs => User t ∧ UserGens gs
  | .other _ gs => UserGens gs

end

/-- The types of the signature of a method. -/
def sigTypes (m : Method) : List Ty := m.output.toList ++ m.inputs

/-- The methods of a trait, in the order in which they are written. -/
def written : List Item → List Method
  | [] => []
  | .method m :: is => m :: written is
  | .assoc _ :: is => written is

/-- The associated types of a trait. -/
def assocs : List Item → List Nat
  | [] => []
  | .method _ :: is => assocs is
  | .assoc n :: is => n :: assocs is

/-! ### The collected types -/

theorem find_some {s : List Ty} {t : Ty} {n : Nat} (h : find s t = some n) : s[n]? = some t := by
  unfold find at h
  rw [List.findIdx?_eq_some_iff_getElem] at h
  obtain ⟨hl, he, _⟩ := h
  simp only [decide_eq_true_eq] at he
  rw [List.getElem?_eq_getElem hl, he]

theorem find_mem {s : List Ty} {t : Ty} : (find s t).isSome = true ↔ t ∈ s := by
  unfold find
  rw [List.findIdx?_isSome]
  simp

theorem push_mem {s : List Ty} {t u : Ty} : u ∈ push s t ↔ u ∈ s ∨ u = t := by
  unfold push
  by_cases h : (find s t).isSome = true
  · have : (find s t).isNone = false := by cases hf : find s t <;> simp_all
    simp only [this, Bool.false_eq_true, if_false]
    have := find_mem.mp h
    constructor
    · exact .inl
    · rintro (h | rfl)
      · exact h
      · exact this
  · have : (find s t).isNone = true := by cases hf : find s t <;> simp_all
    simp [this]

theorem push_nodup {s : List Ty} {t : Ty} (h : s.Nodup) : (push s t).Nodup := by
  unfold push
  by_cases hf : (find s t).isSome = true
  · have : (find s t).isNone = false := by cases hf : find s t <;> simp_all
    simpa only [this, Bool.false_eq_true, if_false] using h
  · have hn : (find s t).isNone = true := by cases hf : find s t <;> simp_all
    simp only [hn, if_true]
    rw [List.nodup_append]
    refine ⟨h, by simp, ?_⟩
    intro a ha b hb
    simp only [List.mem_singleton] at hb
    subst hb
    rintro rfl
    exact hf (find_mem.mpr ha)

theorem extend_mem (ts : List Ty) : ∀ {s : List Ty} {u : Ty}, u ∈ extend s ts ↔ u ∈ s ∨ u ∈ ts := by
  induction ts with
  | nil => intro s u; simp [extend]
  | cons t ts ih =>
    intro s u
    have := @ih (push s t) u
    simp only [extend, List.foldl_cons] at this ⊢
    rw [this, push_mem, List.mem_cons]
    constructor
    · rintro ((h | h) | h)
      · exact .inl h
      · exact .inr (.inl h)
      · exact .inr (.inr h)
    · rintro (h | h | h)
      · exact .inl (.inl h)
      · exact .inl (.inr h)
      · exact .inr h

theorem extend_nodup (ts : List Ty) : ∀ {s : List Ty}, s.Nodup → (extend s ts).Nodup := by
  induction ts with
  | nil => intro s h; simpa [extend] using h
  | cons t ts ih =>
    intro s h
    have := ih (push_nodup (t := t) h)
    simpa only [extend, List.foldl_cons] using this

/-- What the loop over the items builds. -/
theorem fold_items (is : List Item) : ∀ d : Desc,
    (is.foldl addItem d).functions = d.functions ++ (written is).filter (fun m => !m.mutable) ∧
    (is.foldl addItem d).mutFunctions = d.mutFunctions ++ (written is).filter (fun m => m.mutable) ∧
    (is.foldl addItem d).check = d.check ∧
    (∀ t, t ∈ (is.foldl addItem d).sdts ↔ t ∈ d.sdts ∨ ∃ n ∈ assocs is, t = .path (.user n) .none .none) ∧
    (d.sdts.Nodup → (is.foldl addItem d).sdts.Nodup) := by
  induction is with
  | nil => intro d; simp [written, assocs]
  | cons i is ih =>
    intro d
    obtain ⟨h1, h2, h3, h4, h5⟩ := ih (addItem d i)
    rw [List.foldl_cons]
    cases i with
    | method m =>
      rw [h1, h2, h3]
      cases hm : m.mutable <;>
        simp only [addItem, hm, written, assocs, List.filter_cons] at h4 h5 ⊢ <;>
        simp_all
    | assoc n =>
      rw [h1, h2, h3]
      simp only [addItem, written, assocs] at h4 h5 ⊢
      refine ⟨trivial, trivial, trivial, ?_, ?_⟩
      · intro t
        rw [h4, push_mem]
        simp only [List.mem_cons]
        constructor
        · rintro ((h | h) | ⟨k, hk, h⟩)
          · exact .inl h
          · exact .inr ⟨n, .inl rfl, h⟩
          · exact .inr ⟨k, .inr hk, h⟩
        · rintro (h | ⟨k, hk | hk, h⟩)
          · exact .inl (.inl h)
          · subst hk; exact .inl (.inr h)
          · exact .inr ⟨k, hk, h⟩
      · intro h
        exact h5 (push_nodup h)

theorem describe_functions (is : List Item) (c : Bool) : (describe is c).functions = (written is).filter (fun m => !m.mutable) := by
  have := (fold_items is ⟨[], [], [], c⟩).1
  simpa [describe] using this

theorem describe_mutFunctions (is : List Item) (c : Bool) : (describe is c).mutFunctions = (written is).filter (fun m => m.mutable) := by
  have := (fold_items is ⟨[], [], [], c⟩).2.1
  simpa [describe] using this

theorem describe_check (is : List Item) (c : Bool) : (describe is c).check = c := by
  have := (fold_items is ⟨[], [], [], c⟩).2.2.1
  simpa [describe] using this

theorem mem_methods (is : List Item) (c : Bool) (m : Method) : m ∈ (describe is c).methods ↔ m ∈ written is := by
  rw [Desc.methods, describe_functions, describe_mutFunctions, List.mem_append, List.mem_filter, List.mem_filter]
  cases m.mutable <;> simp

theorem mem_selfDependent (m : Method) (t : Ty) : t ∈ m.selfDependent ↔ ∃ u ∈ sigTypes m, t ∈ selfDependent u := by
  unfold Method.selfDependent sigTypes
  cases m.output <;> simp

/-- **C65.** The types for which the vtable has a parameter: the associated types of the trait, and those that its methods take from
`Self`.  Each has one parameter. -/
theorem C65_parameters (is : List Item) (c : Bool) :
    (describe is c).sdts.Nodup ∧
    ∀ t, t ∈ (describe is c).sdts ↔
      (∃ n ∈ assocs is, t = .path (.user n) .none .none) ∨ ∃ m ∈ written is, ∃ u ∈ sigTypes m, t ∈ selfDependent u := by
  obtain ⟨_, _, _, h4, h5⟩ := fold_items is ⟨[], [], [], c⟩
  constructor
  · exact extend_nodup _ (h5 List.nodup_nil)
  · intro t
    have hm : ∀ m, m ∈ (is.foldl addItem ⟨[], [], [], c⟩).functions ++ (is.foldl addItem ⟨[], [], [], c⟩).mutFunctions ↔ m ∈ written is :=
      mem_methods is c
    simp only [describe]
    rw [extend_mem, h4]
    simp only [List.not_mem_nil, false_or, List.mem_flatMap]
    constructor
    · rintro (h | ⟨m, hmm, ht⟩)
      · exact .inl h
      · exact .inr ⟨m, (hm m).mp hmm, (mem_selfDependent m t).mp ht⟩
    · rintro (h | ⟨m, hmm, ht⟩)
      · exact .inl h
      · exact .inr ⟨m, (hm m).mpr hmm, (mem_selfDependent m t).mpr ht⟩

/-! ### Signatures -/

section
variable {s : List Ty}

mutual

theorem unselfed_total : ∀ t : Ty, (∀ u ∈ selfDependent t, u ∈ s) → ∃ t', unselfed s t = some t'
  | .never, _ => ⟨_, rfl⟩
  | .unit, _ => ⟨_, rfl⟩
  | .selfRef t, h => by
    have := find_mem.mpr (h t (by simp [selfDependent]))
    obtain ⟨n, hn⟩ := Option.isSome_iff_exists.mp this
    exact ⟨_, by simp [unselfed, hn]; rfl⟩
  | .arbitrary _ n, h => by
    obtain ⟨t', e⟩ := unselfed_total n (by simpa [selfDependent] using h); exact ⟨_, by simp [unselfed, e]; rfl⟩
  | .reference _ _ e, h => by
    obtain ⟨t', e⟩ := unselfed_total e (by simpa [selfDependent] using h); exact ⟨_, by simp [unselfed, e]; rfl⟩
  | .ptr _ _ e, h => by
    obtain ⟨t', e⟩ := unselfed_total e (by simpa [selfDependent] using h); exact ⟨_, by simp [unselfed, e]; rfl⟩
  | .array e _, h => by
    obtain ⟨t', e⟩ := unselfed_total e (by simpa [selfDependent] using h); exact ⟨_, by simp [unselfed, e]; rfl⟩
  | .bareFn _ _ _ i o, h => by
    obtain ⟨i', ei⟩ := unselfedTys_total i (fun u hu => h u (by simp [selfDependent, hu]))
    obtain ⟨o', eo⟩ := unselfed_total o (fun u hu => h u (by simp [selfDependent, hu]))
    exact ⟨_, by simp [unselfed, ei, eo]; rfl⟩
  | .path _ a n, h => by
    obtain ⟨a', ea⟩ := unselfedArgs_total a (fun u hu => h u (by simp [selfDependent, hu]))
    obtain ⟨n', en⟩ := unselfedO_total n (fun u hu => h u (by simp [selfDependent, hu]))
    exact ⟨_, by simp [unselfed, ea, en]; rfl⟩
  | .leadingColon n, h => by
    obtain ⟨t', e⟩ := unselfed_total n (by simpa [selfDependent] using h); exact ⟨_, by simp [unselfed, e]; rfl⟩
  | .qualified t a n, h => by
    obtain ⟨t', et⟩ := unselfed_total t (fun u hu => h u (by simp [selfDependent, hu]))
    obtain ⟨a', ea⟩ := unselfed_total a (fun u hu => h u (by simp [selfDependent, hu]))
    obtain ⟨n', en⟩ := unselfed_total n (fun u hu => h u (by simp [selfDependent, hu]))
    exact ⟨_, by simp [unselfed, et, ea, en]; rfl⟩

theorem unselfedO_total : ∀ t : OTy, (∀ u ∈ selfDependentO t, u ∈ s) → ∃ t', unselfedO s t = some t'
  | .none, _ => ⟨_, rfl⟩
  | .some t, h => by
    obtain ⟨t', e⟩ := unselfed_total t (by simpa [selfDependentO] using h); exact ⟨_, by simp [unselfedO, e]; rfl⟩

theorem unselfedTys_total : ∀ t : Tys, (∀ u ∈ selfDependentTys t, u ∈ s) → ∃ t', unselfedTys s t = some t'
  | .nil, _ => ⟨_, rfl⟩
  | .cons t ts, h => by
    obtain ⟨t', et⟩ := unselfed_total t (fun u hu => h u (by simp [selfDependentTys, hu]))
    obtain ⟨ts', ets⟩ := unselfedTys_total ts (fun u hu => h u (by simp [selfDependentTys, hu]))
    exact ⟨_, by simp [unselfedTys, et, ets]; rfl⟩

theorem unselfedArgs_total : ∀ t : Args, (∀ u ∈ selfDependentArgs t, u ∈ s) → ∃ t', unselfedArgs s t = some t'
  | .none, _ => ⟨_, rfl⟩
  | .angle gs, h => by
    obtain ⟨t', e⟩ := unselfedGens_total gs (by simpa [selfDependentArgs] using h); exact ⟨_, by simp [unselfedArgs, e]; rfl⟩

theorem unselfedGens_total : ∀ t : Gens, (∀ u ∈ selfDependentGens t, u ∈ s) → ∃ t', unselfedGens s t = some t'
  | .nil, _ => ⟨_, rfl⟩
  | .lifetime _ gs, h => by
    obtain ⟨t', e⟩ := unselfedGens_total gs (by simpa [selfDependentGens] using h); exact ⟨_, by simp [unselfedGens, e]; rfl⟩
  | .type t gs, h => by
    obtain ⟨t', et⟩ := unselfed_total t (fun u hu => h u (by simp [selfDependentGens, hu]))
    obtain ⟨gs', egs⟩ := unselfedGens_total gs (fun u hu => h u (by simp [selfDependentGens, hu]))
    exact ⟨_, by simp [unselfedGens, et, egs]; rfl⟩
  | .other _ gs, h => by
    obtain ⟨t', e⟩ := unselfedGens_total gs (by simpa [selfDependentGens] using h); exact ⟨_, by simp [unselfedGens, e]; rfl⟩

end

theorem inst_path (σ : Nat → Ty) (g : Ident) (a : Args) (n : OTy) (h : ∀ k, g ≠ .unselfed k) :
    inst σ (.path g a n) = .path g (instArgs σ a) (instO σ n) := by
  cases g with
  | user k => rw [inst]; intro k h; cases h
  | unselfed k => exact absurd rfl (h k)

variable {σ : Nat → Ty} {w : Nat}

mutual

theorem inst_unselfed (hσ : ∀ n t, s[n]? = some t → σ n = .arbitrary w t) :
    ∀ t t' : Ty, User t → unselfed s t = some t' → inst σ t' = replaceSelf w t
  | .never, _, _, h => by cases h; rfl
  | .unit, _, _, h => by cases h; rfl
  | .selfRef t, t', _, h => by
    simp only [unselfed, Option.map_eq_some_iff] at h
    obtain ⟨n, hn, rfl⟩ := h
    rw [inst, replaceSelf, hσ n t (find_some hn)]
  | .arbitrary _ n, t', u, h => by
    simp only [unselfed, Option.map_eq_some_iff] at h
    obtain ⟨e, he, rfl⟩ := h
    rw [inst, replaceSelf, inst_unselfed hσ n e u he]
  | .reference _ _ n, t', u, h => by
    simp only [unselfed, Option.map_eq_some_iff] at h
    obtain ⟨e, he, rfl⟩ := h
    rw [inst, replaceSelf, inst_unselfed hσ n e u he]
  | .ptr _ _ n, t', u, h => by
    simp only [unselfed, Option.map_eq_some_iff] at h
    obtain ⟨e, he, rfl⟩ := h
    rw [inst, replaceSelf, inst_unselfed hσ n e u he]
  | .array n _, t', u, h => by
    simp only [unselfed, Option.map_eq_some_iff] at h
    obtain ⟨e, he, rfl⟩ := h
    rw [inst, replaceSelf, inst_unselfed hσ n e u he]
  | .bareFn _ _ _ i o, t', u, h => by
    simp only [unselfed, Option.bind_eq_some_iff, Option.map_eq_some_iff] at h
    obtain ⟨i', hi, o', ho, rfl⟩ := h
    rw [inst, replaceSelf, instTys_unselfed hσ i i' u.1 hi, inst_unselfed hσ o o' u.2 ho]
  | .path g a n, t', u, h => by
    simp only [unselfed, Option.bind_eq_some_iff, Option.map_eq_some_iff] at h
    obtain ⟨a', ha, n', hn, rfl⟩ := h
    rw [inst_path σ g a' n' u.1, replaceSelf, instArgs_unselfed hσ a a' u.2.1 ha, instO_unselfed hσ n n' u.2.2 hn]
  | .leadingColon n, t', u, h => by
    simp only [unselfed, Option.map_eq_some_iff] at h
    obtain ⟨e, he, rfl⟩ := h
    rw [inst, replaceSelf, inst_unselfed hσ n e u he]
  | .qualified t a n, t', u, h => by
    simp only [unselfed, Option.bind_eq_some_iff, Option.map_eq_some_iff] at h
    obtain ⟨t'', ht, a', ha, n', hn, rfl⟩ := h
    rw [inst, replaceSelf, inst_unselfed hσ t t'' u.1 ht, inst_unselfed hσ a a' u.2.1 ha, inst_unselfed hσ n n' u.2.2 hn]

theorem instO_unselfed (hσ : ∀ n t, s[n]? = some t → σ n = .arbitrary w t) :
    ∀ t t' : OTy, UserO t → unselfedO s t = some t' → instO σ t' = replaceSelfO w t
  | .none, _, _, h => by cases h; rfl
  | .some t, t', u, h => by
    simp only [unselfedO, Option.map_eq_some_iff] at h
    obtain ⟨e, he, rfl⟩ := h
    rw [instO, replaceSelfO, inst_unselfed hσ t e u he]

theorem instTys_unselfed (hσ : ∀ n t, s[n]? = some t → σ n = .arbitrary w t) :
    ∀ t t' : Tys, UserTys t → unselfedTys s t = some t' → instTys σ t' = replaceSelfTys w t
  | .nil, _, _, h => by cases h; rfl
  | .cons t ts, t', u, h => by
    simp only [unselfedTys, Option.bind_eq_some_iff, Option.map_eq_some_iff] at h
    obtain ⟨e, he, es, hes, rfl⟩ := h
    rw [instTys, replaceSelfTys, inst_unselfed hσ t e u.1 he, instTys_unselfed hσ ts es u.2 hes]

theorem instArgs_unselfed (hσ : ∀ n t, s[n]? = some t → σ n = .arbitrary w t) :
    ∀ t t' : Args, UserArgs t → unselfedArgs s t = some t' → instArgs σ t' = replaceSelfArgs w t
  | .none, _, _, h => by cases h; rfl
  | .angle gs, t', u, h => by
    simp only [unselfedArgs, Option.map_eq_some_iff] at h
    obtain ⟨e, he, rfl⟩ := h
    rw [instArgs, replaceSelfArgs, instGens_unselfed hσ gs e u he]

theorem instGens_unselfed (hσ : ∀ n t, s[n]? = some t → σ n = .arbitrary w t) :
    ∀ t t' : Gens, UserGens t → unselfedGens s t = some t' → instGens σ t' = replaceSelfGens w t
  | .nil, _, _, h => by cases h; rfl
  | .lifetime _ gs, t', u, h => by
    simp only [unselfedGens, Option.map_eq_some_iff] at h
    obtain ⟨e, he, rfl⟩ := h
    rw [instGens, replaceSelfGens, instGens_unselfed hσ gs e u he]
  | .type t gs, t', u, h => by
    simp only [unselfedGens, Option.bind_eq_some_iff, Option.map_eq_some_iff] at h
    obtain ⟨e, he, es, hes, rfl⟩ := h
    rw [instGens, replaceSelfGens, inst_unselfed hσ t e u.1 he, instGens_unselfed hσ gs es u.2 hes]
  | .other _ gs, t', u, h => by
    simp only [unselfedGens, Option.map_eq_some_iff] at h
    obtain ⟨e, he, rfl⟩ := h
    rw [instGens, replaceSelfGens, instGens_unselfed hσ gs e u he]

end

end

/-- The types of a signature, instantiated. -/
def instSig (σ : Nat → Ty) (s : Sig) : Sig := ⟨s.inputs.map (inst σ), s.output.map (inst σ)⟩

theorem mapM_total {s : List Ty} (ts : List Ty) (h : ∀ t ∈ ts, ∀ u ∈ selfDependent t, u ∈ s) : ∃ ts', ts.mapM (unselfed s) = some ts' := by
  induction ts with
  | nil => exact ⟨[], rfl⟩
  | cons t ts ih =>
    obtain ⟨t', e⟩ := unselfed_total t (h t (by simp))
    obtain ⟨ts', es⟩ := ih (fun t ht => h t (by simp [ht]))
    exact ⟨t' :: ts', by simp [List.mapM_cons, e, es]⟩

theorem mapM_inst {s : List Ty} {σ : Nat → Ty} {w : Nat} (hσ : ∀ n t, s[n]? = some t → σ n = .arbitrary w t) (ts : List Ty) :
    ∀ ts' : List Ty, (∀ t ∈ ts, User t) → ts.mapM (unselfed s) = some ts' → ts'.map (inst σ) = ts.map (replaceSelf w) := by
  induction ts with
  | nil => intro ts' _ h; cases h; rfl
  | cons t ts ih =>
    intro ts' hu h
    rw [List.mapM_cons] at h
    cases e : unselfed s t with
    | none => simp [e] at h
    | some t' =>
      cases es : ts.mapM (unselfed s) with
      | none => simp [e, es] at h
      | some ts'' =>
        simp [e, es] at h
        subst h
        rw [List.map_cons, List.map_cons, inst_unselfed hσ t t' (hu t (by simp)) e, ih ts'' (fun t ht => hu t (by simp [ht])) es]

/-- **C65.** The macro does not panic on the methods of a trait, and the `transmute` that stores the implementation of a method into
the vtable is between equal types: the type of the field, with the parameters of the vtable instantiated by the types of the implementor,
is the type of the implementation (the receivers are `&()` and `&T`). -/
theorem C65_signature (is : List Item) (c : Bool) (w : Nat) (m : Method) (hm : m ∈ written is) (hu : ∀ t ∈ sigTypes m, User t) :
    ∃ sig, fieldSig (describe is c).sdts m = some sig ∧
      ∀ σ : Nat → Ty, (∀ n t, (describe is c).sdts[n]? = some t → σ n = .arbitrary w t) → instSig σ sig = ptrSig w m := by
  have hin : ∀ u ∈ sigTypes m, ∀ t ∈ selfDependent u, t ∈ (describe is c).sdts :=
    fun u hu t ht => ((C65_parameters is c).2 t).mpr (.inr ⟨m, hm, u, hu, ht⟩)
  obtain ⟨i, hi⟩ := mapM_total m.inputs (fun t ht => hin t (by simp [sigTypes, ht]))
  cases ho : m.output with
  | none =>
    refine ⟨⟨i, none⟩, by simp [fieldSig, hi, ho], fun σ hσ => ?_⟩
    simp [instSig, ptrSig, ho, mapM_inst hσ m.inputs i (fun t ht => hu t (by simp [sigTypes, ht])) hi]
  | some o =>
    obtain ⟨o', ho'⟩ := unselfed_total o (hin o (by simp [sigTypes, ho]))
    refine ⟨⟨i, some o'⟩, by simp [fieldSig, hi, ho, ho'], fun σ hσ => ?_⟩
    simp [instSig, ptrSig, ho, mapM_inst hσ m.inputs i (fun t ht => hu t (by simp [sigTypes, ht])) hi,
      inst_unselfed hσ o o' (hu o (by simp [sigTypes, ho])) ho']

/-- `trait MyTrait3 { type A; type B; fn f<'a>(&'a self, a: &'a Self::A, b: Vec<Self::B>) -> Self::B; fn g(&mut self, n: u8) }`,
`A`, `B`, `Vec`, `u8` being 0, 1, 2, 3. -/
def exItems : List Item :=
  [.assoc 0, .assoc 1,
   .method ⟨1, true, [.path (.user 3) .none .none], none⟩,
   .method ⟨0, false, [.reference (some (.named 0)) false (.selfRef (.path (.user 0) .none .none)),
      .path (.user 2) (.angle (.type (.selfRef (.path (.user 1) .none .none)) .nil)) .none], some (.selfRef (.path (.user 1) .none .none))⟩]

example : ∃ m ∈ written exItems, (∀ t ∈ sigTypes m, User t) ∧ fieldSig (describe exItems true).sdts m =
    some ⟨[.reference (some (.named 0)) false (.path (.unselfed 0) .none .none),
      .path (.user 2) (.angle (.type (.path (.unselfed 1) .none .none) .nil)) .none], some (.path (.unselfed 1) .none .none)⟩ :=
  ⟨_, .tail _ (.head _), by simp [sigTypes, User, UserArgs, UserGens, UserO], by decide +kernel⟩

/-- **C65, refuted part.** When the user names a type as the macro names its parameters, the type of the field is not that of the
method. -/
theorem C65_hygiene_refuted : ∃ (is : List Item) (w : Nat) (m : Method) (sig : Sig), m ∈ written is ∧
    fieldSig (describe is false).sdts m = some sig ∧
      ∃ σ : Nat → Ty, (∀ n t, (describe is false).sdts[n]? = some t → σ n = .arbitrary w t) ∧ instSig σ sig ≠ ptrSig w m := by
  refine ⟨[.assoc 0, .method ⟨0, false, [.path (.unselfed 0) .none .none], none⟩], 5, ⟨0, false, [.path (.unselfed 0) .none .none], none⟩,
    ⟨[.path (.unselfed 0) .none .none], none⟩, .head _, rfl, fun _ => .arbitrary 5 (.path (.user 0) .none .none), ?_, ?_⟩
  · intro n t h
    cases n with
    | zero => cases h; rfl
    | succ n => cases h
  · intro h
    cases h

/-! ### Slots -/

/-- **C65.** The order of the functions in the vtable: the methods that take `&self` in the order in which they are written, then those
that take `&mut self`. -/
theorem C65_order (is : List Item) (c : Bool) :
    (describe is c).slots = ((written is).filter (fun m => !m.mutable)).map (·.name) ++ ((written is).filter (fun m => m.mutable)).map (·.name) := by
  simp [Desc.slots, Desc.methods, describe_functions, describe_mutFunctions]

example : (describe exItems true).slots = [0, 1] := by decide +kernel

/-- **C65.** A call of a method through a trait object calls the implementation of that method. -/
theorem C65_calls (is : List Item) (c : Bool) (hn : ((written is).map (·.name)).Nodup) (m : Method) (hm : m ∈ written is) :
    ∃ i, (describe is c).slotOf m.name = some i ∧ (describe is c).slots[i]? = some m.name ∧
      (describe is c).methods[i]? = some m := by
  have hmm := (mem_methods is c m).mpr hm
  have hs : ((describe is c).slotOf m.name).isSome = true := by
    unfold Desc.slotOf
    rw [List.findIdx?_isSome]
    simp only [List.any_eq_true, beq_iff_eq]
    exact ⟨m, hmm, rfl⟩
  obtain ⟨i, hi⟩ := Option.isSome_iff_exists.mp hs
  refine ⟨i, hi, ?_⟩
  unfold Desc.slotOf at hi
  rw [List.findIdx?_eq_some_iff_getElem] at hi
  obtain ⟨hl, he, _⟩ := hi
  simp only [beq_iff_eq] at he
  have hin : (describe is c).methods[i] ∈ written is := (mem_methods is c _).mp (List.getElem_mem hl)
  have heq : (describe is c).methods[i] = m := by
    have : ∀ l : List Method, (l.map (·.name)).Nodup → ∀ a ∈ l, ∀ b ∈ l, a.name = b.name → a = b := by
      intro l
      induction l with
      | nil => intro _ a ha; cases ha
      | cons x l ih =>
        intro h a ha b hb hab
        simp only [List.map_cons, List.nodup_cons, List.mem_map, not_exists, not_and] at h
        rcases List.mem_cons.mp ha with rfl | ha' <;> rcases List.mem_cons.mp hb with rfl | hb'
        · rfl
        · exact absurd hab.symm (h.1 b hb')
        · exact absurd hab (h.1 a ha')
        · exact ih h.2 a ha' b hb' hab
    exact this _ hn _ hin _ hm he
  constructor
  · simp [Desc.slots, List.getElem?_map, List.getElem?_eq_getElem hl, heq]
  · rw [List.getElem?_eq_getElem hl, heq]

example : ((written exItems).map (·.name)).Nodup ∧ (describe exItems true).slotOf 1 = some 1 := by decide +kernel

/-- **C65.** A shared trait object has the methods that take `&self`, an exclusive one adds those that take `&mut self`. -/
theorem C65_receivers (is : List Item) (c : Bool) (n : Nat) :
    (n ∈ (describe is c).shared ↔ ∃ m ∈ written is, m.name = n ∧ m.mutable = false) ∧
    (n ∈ (describe is c).exclusive ↔ ∃ m ∈ written is, m.name = n ∧ m.mutable = true) := by
  constructor
  · rw [Desc.shared, describe_functions, List.mem_map]
    constructor
    · rintro ⟨m, hm, rfl⟩
      simp only [List.mem_filter, Bool.not_eq_true'] at hm
      exact ⟨m, hm.1, rfl, hm.2⟩
    · rintro ⟨m, hm, rfl, h⟩
      exact ⟨m, List.mem_filter.mpr ⟨hm, by simp [h]⟩, rfl⟩
  · rw [Desc.exclusive, describe_mutFunctions, List.mem_map]
    constructor
    · rintro ⟨m, hm, rfl⟩
      simp only [List.mem_filter] at hm
      exact ⟨m, hm.1, rfl, hm.2⟩
    · rintro ⟨m, hm, rfl, h⟩
      exact ⟨m, List.mem_filter.mpr ⟨hm, h⟩, rfl⟩

/-- **C65.** Moving a method that takes `&mut self` across one that takes `&self`, or moving associated types, does not change the
functions of the vtable. -/
theorem C65_reorder (is is' : List Item) (c : Bool)
    (h1 : (written is).filter (fun m => !m.mutable) = (written is').filter (fun m => !m.mutable))
    (h2 : (written is).filter (fun m => m.mutable) = (written is').filter (fun m => m.mutable)) :
    (describe is c).methods = (describe is' c).methods := by
  simp [Desc.methods, describe_functions, describe_mutFunctions, h1, h2]

example : (describe exItems true).slots = (describe exItems.reverse true).slots := by decide +kernel

/-! ### Generic parameters -/

/-- Rust requires the lifetimes of a list of parameters to come first. -/
def LifetimesFirst (ps : List Param) : Prop :=
  ∃ ls rs : List Param, ps = ls ++ rs ∧ (∀ p ∈ ls, ∃ n, p = .lifetime n) ∧ ∀ p ∈ rs, ∀ n, p ≠ .lifetime n

theorem loop_none (rs : List Param) (h : ∀ p ∈ rs, ∃ n, p = .type n) : vtGenericsLoop none rs = rs.map .param := by
  induction rs with
  | nil => rfl
  | cons p rs ih =>
    obtain ⟨n, rfl⟩ := h p (by simp)
    simp [vtGenericsLoop, ih (fun p hp => h p (by simp [hp]))]

theorem loop_some (n : Nat) (rs : List Param) (h : ∀ p ∈ rs, ∃ n, p = .type n) :
    vtGenericsLoop (some n) rs = (List.range n).map .unselfed ++ rs.map .param := by
  cases rs with
  | nil => simp [vtGenericsLoop]
  | cons p rs =>
    obtain ⟨k, rfl⟩ := h p (by simp)
    simp [vtGenericsLoop, loop_none rs (fun p hp => h p (by simp [hp]))]

theorem loop_lifetimes (n : Nat) (ls rs : List Param) (h : ∀ p ∈ ls, ∃ n, p = .lifetime n) :
    vtGenericsLoop (some n) (ls ++ rs) = ls.map .param ++ vtGenericsLoop (some n) rs := by
  induction ls with
  | nil => rfl
  | cons p ls ih =>
    obtain ⟨k, rfl⟩ := h p (by simp)
    simp [vtGenericsLoop, ih (fun p hp => h p (by simp [hp]))]

/-- **C65 (partial).** The vtable is used with the parameters with which it is declared, in the same order, when the trait has no
constant parameters (see `C65_const_refuted`). -/
theorem C65_generics_partial (n : Nat) (ps : List Param) (hl : LifetimesFirst ps) (hc : ∀ p ∈ ps, ∀ k, p ≠ .const k) :
    vtSignature n ps = vtGenerics n ps := by
  obtain ⟨ls, rs, rfl, h1, h2⟩ := hl
  have h3 : ∀ p ∈ rs, ∃ k, p = .type k := by
    intro p hp
    cases p with
    | lifetime k => exact absurd rfl (h2 _ hp k)
    | type k => exact ⟨k, rfl⟩
    | const k => exact absurd rfl (hc _ (by simp [hp]) k)
  rw [vtGenerics, loop_lifetimes n ls rs h1, loop_some n rs h3]
  unfold vtSignature
  have e1 : (ls ++ rs).filter Param.isLifetime = ls := by
    rw [List.filter_append]
    have a : ls.filter Param.isLifetime = ls := by
      rw [List.filter_eq_self]
      intro p hp; obtain ⟨k, rfl⟩ := h1 p hp; rfl
    have b : rs.filter Param.isLifetime = [] := by
      rw [List.filter_eq_nil_iff]
      intro p hp; obtain ⟨k, rfl⟩ := h3 p hp; simp [Param.isLifetime]
    rw [a, b, List.append_nil]
  have e2 : (ls ++ rs).filter Param.isType = rs := by
    rw [List.filter_append]
    have a : ls.filter Param.isType = [] := by
      rw [List.filter_eq_nil_iff]
      intro p hp; obtain ⟨k, rfl⟩ := h1 p hp; simp [Param.isType]
    have b : rs.filter Param.isType = rs := by
      rw [List.filter_eq_self]
      intro p hp; obtain ⟨k, rfl⟩ := h3 p hp; rfl
    rw [a, b, List.nil_append]
  rw [e1, e2, List.append_assoc]

example : LifetimesFirst [.lifetime 0, .type 0] ∧ vtSignature 2 [.lifetime 0, .type 0] = [.param (.lifetime 0), .unselfed 0, .unselfed 1, .param (.type 0)] :=
  ⟨⟨[.lifetime 0], [.type 0], rfl, by simp, by simp⟩, by decide +kernel⟩

/-- C65: the parameters with which the vtable is declared, whatever those of the trait are: the types that depend on `Self` come before the first type. -/
theorem C65_vt_generics (n : Nat) (ps : List Param) : vtGenerics n ps =
    (ps.takeWhile (fun p => !p.isType)).map .param ++ (List.range n).map .unselfed ++ (ps.dropWhile (fun p => !p.isType)).map .param := by
  have rest : ∀ ps : List Param, vtGenericsLoop none ps = ps.map .param := by
    intro ps
    induction ps with
    | nil => rfl
    | cons p ps ih => cases p <;> simp [vtGenericsLoop, ih]
  unfold vtGenerics
  induction ps with
  | nil => simp [vtGenericsLoop]
  | cons p ps ih => cases p <;> simp [vtGenericsLoop, ih, rest, Param.isType]

theorem loop_const (o : Option Nat) (ps : List Param) (k : Nat) (h : .const k ∈ ps) : .param (.const k) ∈ vtGenericsLoop o ps := by
  induction ps generalizing o with
  | nil => cases h
  | cons p ps ih =>
    rcases List.mem_cons.mp h with rfl | h'
    · cases o <;> simp [vtGenericsLoop]
    · cases p <;> cases o <;> simp [vtGenericsLoop, ih _ h']

/-- **C65, refuted part.** The vtable of a trait that has a constant parameter is declared with that parameter and used without it: no
such trait is accepted. -/
theorem C65_const_refuted (n k : Nat) (ps : List Param) (h : .const k ∈ ps) : vtSignature n ps ≠ vtGenerics n ps := by
  intro e
  have := loop_const (some n) ps k h
  rw [← vtGenerics, ← e] at this
  simp only [vtSignature, List.mem_append, List.mem_map, List.mem_filter] at this
  rcases this with (⟨p, ⟨_, hp⟩, e⟩ | ⟨_, _, e⟩) | ⟨p, ⟨_, hp⟩, e⟩
  · cases e; cases hp
  · cases e
  · cases e; cases hp

example : vtGenerics 1 [.const 0, .type 0] = [.param (.const 0), .unselfed 0, .param (.type 0)] := by decide +kernel

/-! ### Function pointers -/

/-- The grammar of the head of a type of function pointers: `for<..>`? `unsafe`? (`extern ".."`)? `fn` (The Rust Reference, Function
pointer types). -/
def FnPtrHead (ts : List Tok) : Prop :=
  ∃ f u a : Bool, ts = (if f then [.forLifetimes] else []) ++ (if u then [.unsafety] else []) ++ (if a then [.abi] else []) ++ [.fn]

/-- **C65 (partial).** The types of the fields of the vtable are well formed for methods that are not `unsafe`. -/
theorem C65_fn_ptr_partial (generic : Bool) : FnPtrHead (pointerHead generic false) :=
  ⟨generic, false, true, by cases generic <;> rfl⟩

/-- **C65, refuted part.** No trait that has an `unsafe` method is accepted: `unsafe` is put after the calling convention. -/
theorem C65_unsafe_refuted (generic : Bool) : ¬ FnPtrHead (pointerHead generic true) := by
  rintro ⟨f, u, a, h⟩
  cases generic <;> cases f <;> cases u <;> cases a <;> cases h

/-- What is written: `for<..>` exactly for generic methods, `unsafe` exactly for `unsafe` methods, always a convention, in this order. -/
theorem C65_fn_ptr_exact (generic isUnsafe : Bool) :
    (.forLifetimes ∈ pointerHead generic isUnsafe ↔ generic = true) ∧ (.unsafety ∈ pointerHead generic isUnsafe ↔ isUnsafe = true) ∧
    .abi ∈ pointerHead generic isUnsafe ∧ (pointerHead generic isUnsafe).getLast? = some .fn := by
  cases generic <;> cases isUnsafe <;> decide

/-! ### C66: checked traits -/

mutual

/-- The type mentions neither `Self`, an array nor a function pointer, except in arguments of generic types. -/
def Visible : Ty → Bool
  | .never => true
  | .unit => true
  | .arbitrary _ n => Visible n
  | .selfRef _ => false
  | .reference _ _ e => Visible e
  | .ptr _ _ e => Visible e
  | .array _ _ => false
  | .bareFn _ _ _ _ _ => false
  | .path _ _ n => VisibleO n
  | .leadingColon n => Visible n
  | .qualified t a n => Visible t && Visible a && Visible n

def VisibleO : OTy → Bool
  | .none => true
  | .some t => Visible t

end

mutual

theorem eq_visible {s : List Ty} : ∀ t t' : Ty, unselfed s t = some t' → tyEq t' t = Visible t
  | .never, _, h => by cases h; rfl
  | .unit, _, h => by cases h; rfl
  | .selfRef t, t', h => by
    simp only [unselfed, Option.map_eq_some_iff] at h
    obtain ⟨n, hn, rfl⟩ := h
    rw [Visible]; simp [tyEq]
  | .arbitrary _ n, t', h => by
    simp only [unselfed, Option.map_eq_some_iff] at h
    obtain ⟨e, he, rfl⟩ := h
    rw [tyEq, Visible, eq_visible n e he]; simp
  | .reference _ _ n, t', h => by
    simp only [unselfed, Option.map_eq_some_iff] at h
    obtain ⟨e, he, rfl⟩ := h
    rw [tyEq, Visible, eq_visible n e he]; simp
  | .ptr _ _ n, t', h => by
    simp only [unselfed, Option.map_eq_some_iff] at h
    obtain ⟨e, he, rfl⟩ := h
    rw [tyEq, Visible, eq_visible n e he]; simp
  | .array n _, t', h => by
    simp only [unselfed, Option.map_eq_some_iff] at h
    obtain ⟨e, he, rfl⟩ := h
    rw [tyEq, Visible]
  | .bareFn _ _ _ i o, t', h => by
    simp only [unselfed, Option.bind_eq_some_iff, Option.map_eq_some_iff] at h
    obtain ⟨i', hi, o', ho, rfl⟩ := h
    rw [tyEq, Visible]
  | .path g a n, t', h => by
    simp only [unselfed, Option.bind_eq_some_iff, Option.map_eq_some_iff] at h
    obtain ⟨a', ha, n', hn, rfl⟩ := h
    rw [tyEq, Visible, eqO_visible n n' hn]; simp
  | .leadingColon n, t', h => by
    simp only [unselfed, Option.map_eq_some_iff] at h
    obtain ⟨e, he, rfl⟩ := h
    rw [tyEq, Visible, eq_visible n e he]
  | .qualified t a n, t', h => by
    simp only [unselfed, Option.bind_eq_some_iff, Option.map_eq_some_iff] at h
    obtain ⟨t'', ht, a', ha, n', hn, rfl⟩ := h
    rw [tyEq, Visible, eq_visible t t'' ht, eq_visible a a' ha, eq_visible n n' hn]

theorem eqO_visible {s : List Ty} : ∀ t t' : OTy, unselfedO s t = some t' → otyEq t' t = VisibleO t
  | .none, _, h => by cases h; rfl
  | .some t, t', h => by
    simp only [unselfedO, Option.map_eq_some_iff] at h
    obtain ⟨e, he, rfl⟩ := h
    rw [otyEq, VisibleO, eq_visible t e he]

end

mutual

theorem unselfed_closed {s : List Ty} : ∀ t : Ty, selfDependent t = [] → unselfed s t = some t
  | .never, _ => rfl
  | .unit, _ => rfl
  | .selfRef _, h => by simp [selfDependent] at h
  | .arbitrary _ n, h => by rw [unselfed, unselfed_closed n (by simpa [selfDependent] using h)]; rfl
  | .reference _ _ n, h => by rw [unselfed, unselfed_closed n (by simpa [selfDependent] using h)]; rfl
  | .ptr _ _ n, h => by rw [unselfed, unselfed_closed n (by simpa [selfDependent] using h)]; rfl
  | .array n _, h => by rw [unselfed, unselfed_closed n (by simpa [selfDependent] using h)]; rfl
  | .bareFn _ _ _ i o, h => by
    simp only [selfDependent, List.append_eq_nil_iff] at h
    rw [unselfed, unselfedTys_closed i h.2, unselfed_closed o h.1]; rfl
  | .path _ a n, h => by
    simp only [selfDependent, List.append_eq_nil_iff] at h
    rw [unselfed, unselfedArgs_closed a h.1, unselfedO_closed n h.2]; rfl
  | .leadingColon n, h => by rw [unselfed, unselfed_closed n (by simpa [selfDependent] using h)]; rfl
  | .qualified t a n, h => by
    simp only [selfDependent, List.append_eq_nil_iff] at h
    rw [unselfed, unselfed_closed t h.1.1, unselfed_closed a h.1.2, unselfed_closed n h.2]; rfl

theorem unselfedO_closed {s : List Ty} : ∀ t : OTy, selfDependentO t = [] → unselfedO s t = some t
  | .none, _ => rfl
  | .some t, h => by rw [unselfedO, unselfed_closed t (by simpa [selfDependentO] using h)]; rfl

theorem unselfedTys_closed {s : List Ty} : ∀ t : Tys, selfDependentTys t = [] → unselfedTys s t = some t
  | .nil, _ => rfl
  | .cons t ts, h => by
    simp only [selfDependentTys, List.append_eq_nil_iff] at h
    rw [unselfedTys, unselfed_closed t h.1, unselfedTys_closed ts h.2]; rfl

theorem unselfedArgs_closed {s : List Ty} : ∀ t : Args, selfDependentArgs t = [] → unselfedArgs s t = some t
  | .none, _ => rfl
  | .angle gs, h => by rw [unselfedArgs, unselfedGens_closed gs (by simpa [selfDependentArgs] using h)]; rfl

theorem unselfedGens_closed {s : List Ty} : ∀ t : Gens, selfDependentGens t = [] → unselfedGens s t = some t
  | .nil, _ => rfl
  | .lifetime _ gs, h => by rw [unselfedGens, unselfedGens_closed gs (by simpa [selfDependentGens] using h)]; rfl
  | .type t gs, h => by
    simp only [selfDependentGens, List.append_eq_nil_iff] at h
    rw [unselfedGens, unselfed_closed t h.1, unselfedGens_closed gs h.2]; rfl
  | .other _ gs, h => by rw [unselfedGens, unselfedGens_closed gs (by simpa [selfDependentGens] using h)]; rfl

end

theorem holds_fold (S : Ty → Prop) (s : List Ty) (ts : List Ty) : ∀ c : Cond,
    (ts.foldl (addInput s) c).holds S ↔
      c.holds S ∧ ∀ t ∈ ts, ∀ u, condOf s t = some u → S u := by
  induction ts with
  | nil => intro c; simp
  | cons t ts ih =>
    intro c
    rw [List.foldl_cons, ih]
    cases h : condOf s t with
    | none => simp [h, addInput]
    | some u => simp [h, addInput, Cond.holds, and_assoc]

theorem cond_holds (S : Ty → Prop) (s : List Ty) (m : Method) :
    (stabilityCond s m).holds S ↔ ∀ t ∈ sigTypes m, ∀ u, condOf s t = some u → S u := by
  unfold stabilityCond
  rw [holds_fold]
  unfold sigTypes
  cases ho : m.output with
  | none => simp [outputCond, Cond.holds]
  | some o => cases hc : condOf s o <;> simp [outputCond, hc, Cond.holds]

theorem condOf_eq {s : List Ty} {t t' : Ty} (h : unselfed s t = some t') : condOf s t = if Visible t then some (elide t') else none := by
  unfold condOf
  rw [h]
  simp only [eq_visible t t' h]

/-- **C66.** What the vtable of a checked trait requires in order to be ABI-stable: that the types of the signatures in which neither
`Self`, an array nor a function pointer can be seen (arguments of generic types are not looked at) are ABI-stable.  `S` says which types are,
the parameters of the vtable standing for the types that depend on `Self`. -/
theorem C66_requires (is : List Item) (S : Ty → Prop) :
    (describe is true).stable S ↔ ∀ m ∈ written is, ∀ t ∈ sigTypes m, Visible t = true →
      ∃ t', unselfed (describe is true).sdts t = some t' ∧ S (elide t') := by
  unfold Desc.stable
  simp only [describe_check, if_true, mem_methods, cond_holds]
  constructor
  · intro h m hm t ht hv
    obtain ⟨t', e⟩ := unselfed_total (s := (describe is true).sdts) t
      (fun u hu => ((C65_parameters is true).2 u).mpr (.inr ⟨m, hm, t, ht, hu⟩))
    exact ⟨t', e, h m hm t ht (elide t') (by rw [condOf_eq e, hv]; rfl)⟩
  · intro h m hm t ht u hu
    obtain ⟨t', e⟩ := unselfed_total (s := (describe is true).sdts) t
      (fun u hu => ((C65_parameters is true).2 u).mpr (.inr ⟨m, hm, t, ht, hu⟩))
    rw [condOf_eq e] at hu
    cases hv : Visible t with
    | false => simp [hv] at hu
    | true =>
      simp only [hv, if_true, Option.some.injEq] at hu
      obtain ⟨t'', e', hs⟩ := h m hm t ht hv
      rw [e] at e'
      cases e'
      rw [← hu]
      exact hs

/-- **C66 (partial).** If the vtable of a checked trait is ABI-stable, so are the types of its signatures that do not depend on `Self`
and have neither an array nor a function pointer (see `C66_array_refuted`, `C66_fn_ptr_refuted`, `C66_assoc_refuted`). -/
theorem C66_checked_partial (is : List Item) (S : Ty → Prop) (hlt : ∀ t, S (elide t) → S t) (h : (describe is true).stable S)
    (m : Method) (hm : m ∈ written is) (t : Ty) (ht : t ∈ sigTypes m) (hc : selfDependent t = []) (hv : Visible t = true) : S t := by
  obtain ⟨t', e, hs⟩ := (C66_requires is S).mp h m hm t ht hv
  rw [unselfed_closed t hc] at e
  cases e
  exact hlt t hs

/-- **C66.** The vtable of a checked trait is ABI-stable when all types of its signatures are, the associated types being any types. -/
theorem C66_accepts (is : List Item) (S : Ty → Prop)
    (h : ∀ m ∈ written is, ∀ t ∈ sigTypes m, ∀ t', unselfed (describe is true).sdts t = some t' → S (elide t')) : (describe is true).stable S := by
  rw [C66_requires]
  intro m hm t ht hv
  obtain ⟨t', e⟩ := unselfed_total (s := (describe is true).sdts) t
    (fun u hu => ((C65_parameters is true).2 u).mpr (.inr ⟨m, hm, t, ht, hu⟩))
  exact ⟨t', e, h m hm t ht t' e⟩

/-- Types are stable unless they mention the type 9. -/
def exStable : Ty → Prop
  | .path (.user 9) _ _ => False
  | .array (.path (.user 9) _ _) _ => False
  | .bareFn _ _ _ (.cons (.path (.user 9) _ _) .nil) _ => False
  | _ => True

/-- `fn f(&self, x: U9)` is refused, `fn f(&self, x: U8)` is accepted. -/
example : ¬ (describe [.method ⟨0, false, [.path (.user 9) .none .none], none⟩] true).stable exStable ∧
    (describe [.method ⟨0, false, [.path (.user 8) .none .none], none⟩] true).stable exStable := by
  constructor
  · intro h
    exact (h ⟨0, false, [.path (.user 9) .none .none], none⟩ (.head _)).2
  · intro m hm
    cases hm with
    | head => exact ⟨trivial, trivial⟩
    | tail _ h => cases h

/-- **C66, refuted part.** `fn f(&self, x: [U9; 3])` is accepted: arrays are never equal to themselves for `Ty::eq`. -/
theorem C66_array_refuted : ∃ (is : List Item) (m : Method) (t : Ty), m ∈ written is ∧ t ∈ sigTypes m ∧ selfDependent t = [] ∧
    ¬ exStable t ∧ (describe is true).stable exStable :=
  ⟨[.method ⟨0, false, [.array (.path (.user 9) .none .none) 3], none⟩], _, .array (.path (.user 9) .none .none) 3, .head _, .head _, rfl, id, by
    intro m hm
    cases hm with
    | head => trivial
    | tail _ h => cases h⟩

/-- **C66, refuted part.** `fn f(&self, x: extern "C" fn(U9))` is accepted, for the same reason. -/
theorem C66_fn_ptr_refuted : ∃ (is : List Item) (m : Method) (t : Ty), m ∈ written is ∧ t ∈ sigTypes m ∧ selfDependent t = [] ∧
    ¬ exStable t ∧ (describe is true).stable exStable :=
  ⟨[.method ⟨0, false, [.bareFn none false (some 0) (.cons (.path (.user 9) .none .none) .nil) .unit], none⟩], _,
    .bareFn none false (some 0) (.cons (.path (.user 9) .none .none) .nil) .unit, .head _, .head _, rfl, id, by
    intro m hm
    cases hm with
    | head => trivial
    | tail _ h => cases h⟩

/-- **C66, refuted part.** Types taken from `Self` are never required to be stable: a trait whose methods exchange only such types is
ABI-stable whatever they are. -/
theorem C66_assoc_refuted (is : List Item) (S : Ty → Prop) (h : ∀ m ∈ written is, ∀ t ∈ sigTypes m, ∃ u, t = .selfRef u) :
    (describe is true).stable S := by
  rw [C66_requires]
  intro m hm t ht hv
  obtain ⟨u, rfl⟩ := h m hm t ht
  cases hv

example : ∀ m ∈ written [.assoc 0, .method ⟨0, true, [], some (.selfRef (.path (.user 0) .none .none))⟩], ∀ t ∈ sigTypes m, ∃ u, t = .selfRef u := by
  intro m hm t ht
  cases hm with
  | head =>
    cases ht with
    | head => exact ⟨_, rfl⟩
    | tail _ h => cases h
  | tail _ h => cases h

/-- **C66.** The vtable of a trait that is not checked is always ABI-stable. -/
theorem C66_unchecked (is : List Item) (S : Ty → Prop) : (describe is false).stable S := by
  intro m hm
  simp [describe_check]

/-- **C66, refuted part.** The vtable of a trait object of closures is ABI-stable whatever the arguments are; that of `Fn` and `FnMut`
whatever the result is. -/
theorem C66_closure_refuted (S : Ty → Prop) (inputs : List Ty) (output : Ty) :
    (onceStable S inputs output ↔ S output) ∧ ∀ mutable, (callDesc mutable inputs output).stable S :=
  ⟨Iff.rfl, fun _ => C66_unchecked _ S⟩

/-- The vtables of `FnMut` and `Fn` have a single function, with the arguments and the result of the closure, called on `&mut self` and `&self`. -/
theorem C66_closure_methods (inputs : List Ty) (output : Ty) : ∃ name,
    (callDesc true inputs output).functions = [] ∧ (callDesc true inputs output).mutFunctions = [⟨name, true, inputs, some output⟩] ∧
    (callDesc false inputs output).functions = [⟨name, false, inputs, some output⟩] ∧ (callDesc false inputs output).mutFunctions = [] :=
  ⟨_, rfl, rfl, rfl, rfl⟩

mutual

/-- All references have a lifetime, except under function pointers: what Rust requires of the types of the fields of a struct. -/
def Spelled : Ty → Bool
  | .never => true
  | .unit => true
  | .arbitrary _ n => Spelled n
  | .selfRef t => Spelled t
  | .reference l _ e => l.isSome && Spelled e
  | .ptr _ _ e => Spelled e
  | .array e _ => Spelled e
  | .bareFn _ _ _ _ _ => true
  | .path _ a n => SpelledArgs a && SpelledO n
  | .leadingColon n => Spelled n
  | .qualified t a n => Spelled t && Spelled a && Spelled n

def SpelledO : OTy → Bool
  | .none => true
  | .some t => Spelled t

def SpelledArgs : Args → Bool
  | .none => true
  | .angle gs => SpelledGens gs

def SpelledGens : Gens → Bool
  | .nil => true
  | .lifetime _ gs => SpelledGens gs
  | .type t gs => Spelled t && SpelledGens gs
  | .other _ gs => SpelledGens gs

end

mutual

theorem spelled_elide : ∀ t : Ty, Spelled (elide t) = Spelled t
  | .never => rfl
  | .unit => rfl
  | .arbitrary _ n => by rw [elide, Spelled, Spelled, spelled_elide n]
  | .selfRef t => by rw [elide, Spelled, Spelled, spelled_elide t]
  | .reference l _ e => by rw [elide, Spelled, Spelled, spelled_elide e, Option.isSome_map]
  | .ptr _ _ e => by rw [elide, Spelled, Spelled, spelled_elide e]
  | .array e _ => by rw [elide, Spelled, Spelled, spelled_elide e]
  | .bareFn _ _ _ _ _ => rfl
  | .path _ a n => by rw [elide, Spelled, Spelled, spelledArgs_elide a, spelledO_elide n]
  | .leadingColon n => by rw [elide, Spelled, Spelled, spelled_elide n]
  | .qualified t a n => by rw [elide, Spelled, Spelled, spelled_elide t, spelled_elide a, spelled_elide n]

theorem spelledO_elide : ∀ t : OTy, SpelledO (elideO t) = SpelledO t
  | .none => rfl
  | .some t => by rw [elideO, SpelledO, SpelledO, spelled_elide t]

theorem spelledArgs_elide : ∀ t : Args, SpelledArgs (elideArgs t) = SpelledArgs t
  | .none => rfl
  | .angle gs => by rw [elideArgs, SpelledArgs, SpelledArgs, spelledGens_elide gs]

theorem spelledGens_elide : ∀ t : Gens, SpelledGens (elideGens t) = SpelledGens t
  | .nil => rfl
  | .lifetime _ gs => by rw [elideGens, SpelledGens, SpelledGens, spelledGens_elide gs]
  | .type t gs => by rw [elideGens, SpelledGens, SpelledGens, spelled_elide t, spelledGens_elide gs]
  | .other _ gs => by rw [elideGens, SpelledGens, SpelledGens, spelledGens_elide gs]

end

mutual

/-- No lifetime of the trait or of a method is left, except under function pointers. -/
def Unnamed : Ty → Bool
  | .never => true
  | .unit => true
  | .arbitrary _ n => Unnamed n
  | .selfRef t => Unnamed t
  | .reference l _ e => (l == none || l == some .static) && Unnamed e
  | .ptr _ _ e => Unnamed e
  | .array e _ => Unnamed e
  | .bareFn _ _ _ _ _ => true
  | .path _ a n => UnnamedArgs a && UnnamedO n
  | .leadingColon n => Unnamed n
  | .qualified t a n => Unnamed t && Unnamed a && Unnamed n

def UnnamedO : OTy → Bool
  | .none => true
  | .some t => Unnamed t

def UnnamedArgs : Args → Bool
  | .none => true
  | .angle gs => UnnamedGens gs

def UnnamedGens : Gens → Bool
  | .nil => true
  | .lifetime l gs => l == .static && UnnamedGens gs
  | .type t gs => Unnamed t && UnnamedGens gs
  | .other _ gs => UnnamedGens gs

end

mutual

theorem unnamed_elide : ∀ t : Ty, Unnamed (elide t) = true
  | .never => rfl
  | .unit => rfl
  | .arbitrary _ n => by rw [elide, Unnamed, unnamed_elide n]
  | .selfRef t => by rw [elide, Unnamed, unnamed_elide t]
  | .reference l _ e => by rw [elide, Unnamed, unnamed_elide e]; cases l <;> rfl
  | .ptr _ _ e => by rw [elide, Unnamed, unnamed_elide e]
  | .array e _ => by rw [elide, Unnamed, unnamed_elide e]
  | .bareFn _ _ _ _ _ => rfl
  | .path _ a n => by rw [elide, Unnamed, unnamedArgs_elide a, unnamedO_elide n]; rfl
  | .leadingColon n => by rw [elide, Unnamed, unnamed_elide n]
  | .qualified t a n => by rw [elide, Unnamed, unnamed_elide t, unnamed_elide a, unnamed_elide n]; rfl

theorem unnamedO_elide : ∀ t : OTy, UnnamedO (elideO t) = true
  | .none => rfl
  | .some t => by rw [elideO, UnnamedO, unnamed_elide t]

theorem unnamedArgs_elide : ∀ t : Args, UnnamedArgs (elideArgs t) = true
  | .none => rfl
  | .angle gs => by rw [elideArgs, UnnamedArgs, unnamedGens_elide gs]

theorem unnamedGens_elide : ∀ t : Gens, UnnamedGens (elideGens t) = true
  | .nil => rfl
  | .lifetime _ gs => by rw [elideGens, UnnamedGens, unnamedGens_elide gs]; rfl
  | .type t gs => by rw [elideGens, UnnamedGens, unnamed_elide t, unnamedGens_elide gs]; rfl
  | .other _ gs => by rw [elideGens, UnnamedGens, unnamedGens_elide gs]

end

/-- The types that are written in the condition of a field. -/
def condTypes : Cond → List Ty
  | .unit => []
  | .type t => [t]
  | .union c t => condTypes c ++ [t]

theorem condTypes_fold (s : List Ty) (ts : List Ty) (u : Ty) : ∀ c : Cond,
    u ∈ condTypes (ts.foldl (addInput s) c) ↔
      u ∈ condTypes c ∨ ∃ t ∈ ts, condOf s t = some u := by
  induction ts with
  | nil => intro c; simp
  | cons t ts ih =>
    intro c
    rw [List.foldl_cons, ih]
    cases h : condOf s t with
    | none => simp [h, addInput]
    | some v => simp [h, addInput, condTypes, or_assoc, eq_comm]

theorem condTypes_mem (s : List Ty) (m : Method) (u : Ty) :
    u ∈ condTypes (stabilityCond s m) ↔ ∃ t ∈ sigTypes m, condOf s t = some u := by
  unfold stabilityCond
  rw [condTypes_fold]
  unfold sigTypes
  cases ho : m.output with
  | none => simp [outputCond, condTypes]
  | some o => cases hc : condOf s o <;> simp [outputCond, hc, condTypes, eq_comm]

/-- **C66 (partial).** The types that checking adds to the fields of the vtable mention no lifetime of the trait or its methods, and are
accepted in a struct exactly when the user wrote the lifetimes of all references (see `C66_elided_refuted`).  Stated for a type
that does not depend on `Self`. -/
theorem C66_wellformed_partial (is : List Item) (m : Method) (_ : m ∈ written is) (t : Ty) (ht : t ∈ sigTypes m) (hc : selfDependent t = [])
    (hv : Visible t = true) : ∃ u ∈ condTypes (stabilityCond (describe is true).sdts m), Unnamed u = true ∧ Spelled u = Spelled t := by
  refine ⟨elide t, ?_, unnamed_elide t, spelled_elide t⟩
  rw [condTypes_mem]
  exact ⟨t, ht, by rw [condOf_eq (unselfed_closed t hc), hv]; rfl⟩

example : Visible (.reference (some (.named 0)) false (.path (.user 3) .none .none)) = true ∧
    Spelled (.reference (some (.named 0)) false (.path (.user 3) .none .none)) = true := ⟨rfl, rfl⟩

/-- **C66, refuted part.** Checking a trait one of whose methods takes `x: &T` puts a reference without lifetime in a field of the
vtable, which Rust refuses. -/
theorem C66_elided_refuted (is : List Item) (m : Method) (hm : m ∈ written is) (mutable : Bool) (e : Ty)
    (ht : .reference none mutable e ∈ sigTypes m) (hc : selfDependent e = []) (hv : Visible e = true) :
    ∃ u ∈ condTypes (stabilityCond (describe is true).sdts m), Spelled u = false := by
  obtain ⟨u, hu, _, h⟩ := C66_wellformed_partial is m hm (.reference none mutable e) ht (by rw [selfDependent]; exact hc) (by rw [Visible]; exact hv)
  exact ⟨u, hu, h⟩

example : Ty.reference none false (.path (.user 3) .none .none) ∈ sigTypes ⟨0, false, [.reference none false (.path (.user 3) .none .none)], none⟩ := .head _

mutual

/-- Two types are the same but for lifetimes that are written in both. -/
def UpToLt : Ty → Ty → Prop
  | .never, .never => True
  | .unit, .unit => True
  | .arbitrary p n, .arbitrary p' n' => p = p' ∧ UpToLt n n'
  | .selfRef t, .selfRef t' => UpToLt t t'
  | .reference l m e, .reference l' m' e' => l.isSome = l'.isSome ∧ m = m' ∧ UpToLt e e'
  | .ptr c m e, .ptr c' m' e' => c = c' ∧ m = m' ∧ UpToLt e e'
  | .array e n, .array e' n' => n = n' ∧ UpToLt e e'
  | .bareFn l u a i o, .bareFn l' u' a' i' o' => l = l' ∧ u = u' ∧ a = a' ∧ i = i' ∧ o = o'
  | .path g a n, .path g' a' n' => g = g' ∧ UpToLtArgs a a' ∧ UpToLtO n n'
  | .leadingColon n, .leadingColon n' => UpToLt n n'
  | .qualified t a n, .qualified t' a' n' => UpToLt t t' ∧ UpToLt a a' ∧ UpToLt n n'
  | _, _ => False

def UpToLtO : OTy → OTy → Prop
  | .none, .none => True
  | .some t, .some t' => UpToLt t t'
  | _, _ => False

def UpToLtArgs : Args → Args → Prop
  | .none, .none => True
  | .angle g, .angle g' => UpToLtGens g g'
  | _, _ => False

def UpToLtGens : Gens → Gens → Prop
  | .nil, .nil => True
  | .lifetime _ g, .lifetime _ g' => UpToLtGens g g'
  | .type t g, .type t' g' => UpToLt t t' ∧ UpToLtGens g g'
  | .other k g, .other k' g' => k = k' ∧ UpToLtGens g g'
  | _, _ => False

end

mutual

/-- **C66.** The type whose stability is asked for is the type that was written, with other lifetimes. -/
theorem C66_elide : ∀ t : Ty, UpToLt t (elide t)
  | .never => by simp [elide, UpToLt]
  | .unit => by simp [elide, UpToLt]
  | .arbitrary _ n => by simp [elide, UpToLt, C66_elide n]
  | .selfRef t => by simp [elide, UpToLt, C66_elide t]
  | .reference l _ e => by simp [elide, UpToLt, C66_elide e]
  | .ptr _ _ e => by simp [elide, UpToLt, C66_elide e]
  | .array e _ => by simp [elide, UpToLt, C66_elide e]
  | .bareFn _ _ _ _ _ => by simp [elide, UpToLt]
  | .path _ a n => by simp [elide, UpToLt, elide_args a, elide_o n]
  | .leadingColon n => by simp [elide, UpToLt, C66_elide n]
  | .qualified t a n => by simp [elide, UpToLt, C66_elide t, C66_elide a, C66_elide n]

theorem elide_o : ∀ t : OTy, UpToLtO t (elideO t)
  | .none => by simp [elideO, UpToLtO]
  | .some t => by simp [elideO, UpToLtO, C66_elide t]

theorem elide_args : ∀ t : Args, UpToLtArgs t (elideArgs t)
  | .none => by simp [elideArgs, UpToLtArgs]
  | .angle gs => by simp [elideArgs, UpToLtArgs, elide_gens gs]

theorem elide_gens : ∀ t : Gens, UpToLtGens t (elideGens t)
  | .nil => by simp [elideGens, UpToLtGens]
  | .lifetime _ gs => by simp [elideGens, UpToLtGens, elide_gens gs]
  | .type t gs => by simp [elideGens, UpToLtGens, C66_elide t, elide_gens gs]
  | .other _ gs => by simp [elideGens, UpToLtGens, elide_gens gs]

end

mutual

/-- The type with the generic arguments of its path left out. -/
def bare : Ty → Ty
  | .arbitrary p n => .arbitrary p (bare n)
  | .selfRef t => .selfRef (bare t)
  | .reference l m e => .reference l m (bare e)
  | .ptr c m e => .ptr c m (bare e)
  | .path g _ n => .path g .none (bareO n)
  | .leadingColon n => .leadingColon (bare n)
  | .qualified t a n => .qualified (bare t) (bare a) (bare n)
  | t => t

def bareO : OTy → OTy
  | .none => .none
  | .some t => .some (bare t)

end

mutual

/-- **C66.** Types that the macro takes for equal differ only in generic arguments. -/
theorem C66_eq : ∀ t t' : Ty, tyEq t t' = true → bare t = bare t'
  | .arbitrary _ n, .arbitrary _ n', h => by
    simp only [tyEq, Bool.and_eq_true, beq_iff_eq] at h; simp [bare, h.1, C66_eq n n' h.2]
  | .selfRef n, .selfRef n', h => by simp only [tyEq] at h; simp [bare, C66_eq n n' h]
  | .reference _ _ n, .reference _ _ n', h => by
    simp only [tyEq, Bool.and_eq_true, beq_iff_eq, decide_eq_true_eq] at h; simp [bare, h.1, C66_eq n n' h.2]
  | .ptr _ _ n, .ptr _ _ n', h => by simp only [tyEq, Bool.and_eq_true, beq_iff_eq] at h; simp [bare, h.1, C66_eq n n' h.2]
  | .path _ _ n, .path _ _ n', h => by
    simp only [tyEq, Bool.and_eq_true, decide_eq_true_eq] at h; simp [bare, h.1, eq_o n n' h.2]
  | .leadingColon n, .leadingColon n', h => by simp only [tyEq] at h; simp [bare, C66_eq n n' h]
  | .qualified t a n, .qualified t' a' n', h => by
    simp only [tyEq, Bool.and_eq_true] at h; simp [bare, C66_eq t t' h.1.1, C66_eq a a' h.1.2, C66_eq n n' h.2]
  | .never, t', h => by cases t' <;> simp [tyEq, bare] at h ⊢
  | .unit, t', h => by cases t' <;> simp [tyEq, bare] at h ⊢
  | .array _ _, t', h => by simp [tyEq] at h
  | .bareFn _ _ _ _ _, t', h => by simp [tyEq] at h

theorem eq_o : ∀ t t' : OTy, otyEq t t' = true → bareO t = bareO t'
  | .none, .none, _ => rfl
  | .some t, .some t', h => by simp only [otyEq] at h; simp [bareO, C66_eq t t' h]
  | .none, .some _, h => by simp [otyEq] at h
  | .some _, .none, h => by simp [otyEq] at h

end

example : tyEq (.path (.user 1) (.angle (.other 0 .nil)) .none) (.path (.user 1) .none .none) = true := by decide +kernel

end Verif.Props.Traits
