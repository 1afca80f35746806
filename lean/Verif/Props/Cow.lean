import Verif.Sum.Cow
import Verif.Props.Sum
import Verif.Props.Pass

/-! Property C98.  The specification is a `Cow` over values. -/
namespace Verif.Props.Cow
open Verif.Sum Verif.Layout Verif.Props.Combi Verif.Props.Pass

/-- A value of `Cow`: a reference (its bytes), or an owned value. -/
inductive CowVal where
  | borrowed (r : Val)
  | owned (v : Val)

/-- Memory is a `Cow` that was built with this. -/
inductive Built (o : Ty) : Mem → CowVal → Prop where
  | borrowed {r v} : Rep .ref v r → Built o (cowBorrowed o r) (.borrowed v)
  | owned {x v} : Rep o v x → Built o (cowOwned o x) (.owned v)

variable {o : Ty}

theorem cowTree_ty (o : Ty) : (cowTree o).ty = cowTy o := by
  simp [cowTree, build, cowTy, Tree.ty]

theorem cowTree_eq (o : Ty) : cowTree o = .node (.leaf .ref) (.leaf o) := by
  simp [cowTree, build]

theorem borrowed_eq (o : Ty) (r : Mem) : cowBorrowed o r = mkOk Ty.ref.lay o.lay r := by
  simp [cowBorrowed, cowTree_eq, Tree.ctor, Tree.count, Tree.ty]

theorem owned_eq (o : Ty) (x : Mem) : cowOwned o x = mkErr Ty.ref.lay o.lay x := by
  simp [cowOwned, cowTree_eq, Tree.ctor, Tree.count, Tree.ty]

def CowVal.core : CowVal → Core Val
  | .borrowed r => .inl r
  | .owned v => .inr v

theorem built_rep (h : (cowTy o).WF) {m : Mem} {c : CowVal} (hb : Built o m c) : RepCore .ref o m c.core := by
  cases hb with
  | borrowed hr => rw [borrowed_eq]; exact mkOk_rep h hr
  | owned hv => rw [owned_eq]; exact mkErr_rep h hv

/-- What `into_owned` does: a reference is cloned, once; an owned value is given as it is, neither cloned nor dropped. -/
def specInto (clone : Val → SRun Val) : CowVal → SRun Val
  | .borrowed r => clone r
  | .owned v => ⟨[], some v⟩

/-- What `borrow` does. -/
def specBorrow (borrow : Val → SRun Val) : CowVal → SRun Val
  | .borrowed r => ⟨[], some r⟩
  | .owned v => borrow v

/-- `into_owned`, for types whose storage is not truncated. -/
theorem C98_into_owned_partial (h : (cowTy o).WF) {m : Mem} {c : CowVal} (hb : Built o m c) {f : Mem → MRun Mem} {g : Val → SRun Val}
    (hf : FunRel .ref o .ref (fun x v => Rep o v x) f g) :
    RunRel .ref o (fun x v => Rep o v x) (intoOwned o f m) (specInto g c) := by
  have e : specInto g c = Spec.cases c.core g (fun v => ⟨[], some v⟩) := by cases c <;> rfl
  rw [e]
  exact C61_match_owned (built_rep h hb) hf fun _ _ hv => pure_rel hv

/-- `to_owned` gives an owned `Cow` of the same value. -/
theorem C98_to_owned_partial (h : (cowTy o).WF) {m : Mem} {c : CowVal} (hb : Built o m c) {f : Mem → MRun Mem} {g : Val → SRun Val}
    (hf : FunRel .ref o .ref (fun x v => Rep o v x) f g) :
    RunRel .ref o (fun x v => Built o x (.owned v)) (toOwned o f m) (specInto g c) :=
  bind_left (C98_into_owned_partial h hb hf) fun _ _ hv => pure_rel (.owned hv)

/-- `borrow` gives the reference, or borrows the owned value. -/
theorem C98_borrow_partial (h : (cowTy o).WF) {m : Mem} {c : CowVal} (hb : Built o m c) {f : Mem → MRun Mem} {g : Val → SRun Val}
    (hf : FunRel .ref o o (fun x v => Rep .ref v x) f g) :
    RunRel .ref o (fun x v => Rep .ref v x) (cowBorrow o f m) (specBorrow g c) := by
  have e : specBorrow g c = Spec.cases c.core (fun v => ⟨[], some v⟩) g := by cases c <;> rfl
  rw [e]
  exact C61_match_ref (built_rep h hb) (fun _ _ hv => pure_rel hv) hf

/-- Which types can be owned by a `Cow`: with an alignment of at most eight those of at most eight bytes and those that are a multiple of
eight bytes; with a larger one those that have a size. -/
theorem C98_storage_iff (h : o.WF) (hs : o.lay.size % o.lay.align = 0) :
    (errOffset Ty.ref.lay o.lay + o.lay.size ≤ storageBytes Ty.ref.lay o.lay ∧
      okOffset Ty.ref.lay o.lay + 8 ≤ storageBytes Ty.ref.lay o.lay) ↔
    if o.lay.align ≤ 8 then o.lay.size ≤ 8 ∨ o.lay.size % 8 = 0 else o.lay.size ≠ 0 := by
  rw [and_comm]
  rw [show (8 : Nat) = Ty.ref.lay.size from rfl, Props.Sum.C12_storage_iff _ _ (ty_good ref_wf) (ty_good h)]
  rw [show Ty.ref.lay.size = 8 from rfl, show Ty.ref.lay.align = 8 from rfl]
  split
  · rename_i ha
    rw [Nat.max_eq_left ha]
    rcases Nat.le_total o.lay.size 8 with h8 | h8
    · rw [Nat.max_eq_left h8]; simp [h8]
    · rw [Nat.max_eq_right h8]
      constructor
      · exact Or.inr
      · rintro (h' | h')
        · rw [show o.lay.size = 8 by omega]
        · exact h'
  · rename_i ha
    rw [show max 8 o.lay.align = o.lay.align from Nat.max_eq_right (by omega)]
    constructor
    · intro hm he
      rw [he, Nat.max_zero, Nat.mod_eq_of_lt (by omega)] at hm
      exact absurd hm (by decide)
    · intro hne
      have hle : o.lay.align ≤ o.lay.size := Nat.le_of_dvd (Nat.pos_of_ne_zero hne) (Nat.dvd_of_mod_eq_zero hs)
      rw [show max 8 o.lay.size = o.lay.size from Nat.max_eq_right (by omega)]; exact hs

/-- `Cow<'_, [u8; 9]>` has eight bytes: `Cow::Owned` writes nine. -/
theorem C98_storage_refuted : (Ty.array .u8 9).WF ∧ storageBytes Ty.ref.lay (Ty.array .u8 9).lay = 8 ∧
    storageBytes Ty.ref.lay (Ty.array .u8 9).lay < errOffset Ty.ref.lay (Ty.array .u8 9).lay + 9 :=
  ⟨⟨⟨0, rfl⟩, trivial, by simp [Fv.offsets]⟩, by decide +kernel, by decide +kernel⟩

/-- `CowStr` is as large as a `String`, needs no tag, and has room for both variants. -/
theorem C98_str : cowStrTree.ty.WF ∧ cowStrTree.ty.lay.size = 24 ∧ storageBytes strTy.lay (stringTy (.struct (.array .u8 0))).lay = 24 ∧
    (stringTy (.struct (.array .u8 0))).lay.size = 24 := by
  have e : cowStrTree = .node (.leaf strTy) (.leaf (stringTy (.struct (.array .u8 0)))) := by simp [cowStrTree, build]
  rw [e]
  have hz : Ty.u8.WF := ⟨⟨0, rfl⟩, trivial, by simp [Fv.offsets]⟩
  exact ⟨⟨⟨ref_wf, usize_wf⟩, ⟨⟨⟨ref_wf, ref_wf⟩, ref_wf⟩, hz⟩, by decide +kernel⟩, by decide +kernel, by decide +kernel, by decide +kernel⟩

/-- Both variants of `CowStr` are read back as they were built. -/
theorem C98_str_round_trip {v : Val} {x : Mem} :
    (Rep strTy v x → (cowStrTree.dispatch 0 (cowStrTree.ctor 0 x)).1 = 0 ∧ Rep strTy v (cowStrTree.dispatch 0 (cowStrTree.ctor 0 x)).2) ∧
    (Rep (stringTy (.struct (.array .u8 0))) v x → (cowStrTree.dispatch 0 (cowStrTree.ctor 1 x)).1 = 1 ∧
      Rep (stringTy (.struct (.array .u8 0))) v (cowStrTree.dispatch 0 (cowStrTree.ctor 1 x)).2) := by
  have e : cowStrTree = .node (.leaf strTy) (.leaf (stringTy (.struct (.array .u8 0)))) := by simp [cowStrTree, build]
  have l0 : cowStrTree.leaves[0]? = some strTy := by rw [e]; rfl
  have l1 : cowStrTree.leaves[1]? = some (stringTy (.struct (.array .u8 0))) := by rw [e]; rfl
  constructor
  · intro h
    simpa using dispatch_rep l0 0 (ctor_rep C98_str.1 l0 h)
  · intro h
    simpa using dispatch_rep l1 0 (ctor_rep C98_str.1 l1 h)

/-! ### Examples -/

/-- A reference that is not null. -/
def aRef : Val := .raw [16, 0, 0, 0, 0, 0, 0, 0]
theorem aRef_rep : Rep .ref aRef (encode .ref aRef) :=
  encode_rep ref_wf ⟨rfl, fun h => by have := (forbids_nz _).1 h 0 (by decide); simp at this⟩

theorem bool_wf : Ty.bool.WF := ⟨⟨0, rfl⟩, by simp [Fv.WF], by simp [Fv.offsets]⟩
theorem cowBool_wf : (cowTy .bool).WF := ⟨ref_wf, bool_wf, by decide +kernel⟩

theorem true_rep : Rep .bool (.raw [1]) (encode .bool (.raw [1])) := encode_rep bool_wf ⟨rfl, by simp [Fv.Forbids]⟩

/-- `Cow<'_, bool>`: a borrowed one is cloned. -/
example : RunRel .ref .bool (fun x v => Rep .bool v x)
    (intoOwned .bool (fun _ => ⟨[.user 7], some (encode .bool (.raw [1]))⟩) (cowBorrowed .bool (encode .ref aRef)))
    ⟨[.user 7], some (.raw [1])⟩ :=
  C98_into_owned_partial cowBool_wf (.borrowed aRef_rep) (g := fun _ => ⟨[.user 7], some (.raw [1])⟩) fun _ _ _ =>
    ⟨.cons rfl .nil, .some true_rep⟩

/-- An owned one is not. -/
example : RunRel .ref .bool (fun x v => Rep .bool v x)
    (intoOwned .bool (fun _ => ⟨[.user 7], none⟩) (cowOwned .bool (encode .bool (.raw [1])))) ⟨[], some (.raw [1])⟩ :=
  C98_into_owned_partial cowBool_wf (.owned true_rep) (g := fun _ => ⟨[.user 7], none⟩) fun _ _ _ =>
    ⟨.cons rfl .nil, .none⟩

/-- And can be borrowed from. -/
example : RunRel .ref .bool (fun x v => Rep .ref v x)
    (cowBorrow .bool (fun _ => .pure (encode .ref aRef)) (cowOwned .bool (encode .bool (.raw [1])))) ⟨[], some aRef⟩ :=
  C98_borrow_partial cowBool_wf (.owned true_rep) (g := fun _ => ⟨[], some aRef⟩) fun _ _ _ =>
    pure_rel aRef_rep

/-- `to_owned` of a borrowed one. -/
example : RunRel .ref .bool (fun x v => Built .bool x (.owned v))
    (toOwned .bool (fun _ => .pure (encode .bool (.raw [1]))) (cowBorrowed .bool (encode .ref aRef))) ⟨[], some (.raw [1])⟩ :=
  C98_to_owned_partial cowBool_wf (.borrowed aRef_rep) (g := fun _ => ⟨[], some (.raw [1])⟩) fun _ _ _ =>
    pure_rel true_rep

/-- `Cow<'_, [u32; 2]>` and `Cow<'_, [u64; 5]>` have room, `Cow<'_, [u32; 3]>` has not. -/
example : (Ty.array .u32 2).lay.size ≤ 8 ∧ (Ty.array .u64 5).lay.size % 8 = 0 ∧ (Ty.array .u32 3).lay.size % 8 ≠ 0 := by decide +kernel

end Verif.Props.Cow
