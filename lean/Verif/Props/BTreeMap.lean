import Verif.BTree.Map
import Verif.Props.BTree
import Mathlib.Data.List.Forall2

/-! Property C28 for `ArcBTreeMap`.  The specification: variables hold functions from keys to values. -/
namespace Verif.Props.BTreeMap
open Verif.BTree Verif.Props.BTree
variable {κ β : Type} [LinearOrder κ]

/-- One operation on functions: what is answered, and the variables after it. -/
def step (F : List (Option (κ → Option β))) : MapOp κ β → Option (Option β) × List (Option (κ → Option β))
  | .new => (none, F ++ [some fun (_ : κ) => (none : Option β)])
  | .clone i =>
    match F[i]? with
    | some (some f) => (none, F ++ [some f])
    | _ => (none, F)
  | .insert i k v =>
    match F[i]? with
    | some (some f) => (some (f k), F.set i (some fun j => if j = k then some v else f j))
    | _ => (none, F)
  | .get i k =>
    match F[i]? with
    | some (some f) => (some (f k), F)
    | _ => (none, F)
  | .drop i =>
    match F[i]? with
    | some (some _) => (none, F.set i none)
    | _ => (none, F)

def spec (F : List (Option (κ → Option β))) : List (MapOp κ β) → List (Option (Option β))
  | [] => []
  | op :: ops => (step F op).1 :: spec (step F op).2 ops

/-- The set holds the entries of the function. -/
def EntriesOf (m : κ → Option (κ × β)) (f : κ → Option β) : Prop := ∀ k, m k = (f k).map fun v => (k, v)

abbrev Same (D : List (Option (κ → Option (κ × β)))) (F : List (Option (κ → Option β))) : Prop := List.Forall₂ (Option.Rel EntriesOf) D F

omit [LinearOrder κ] in
theorem same_get {D : List (Option (κ → Option (κ × β)))} {F : List (Option (κ → Option β))} (h : Same D F) {i : Nat} {m : κ → Option (κ × β)}
    (hm : D[i]? = some (some m)) : ∃ f, F[i]? = some (some f) ∧ EntriesOf m f := by
  induction h generalizing i with
  | nil => simp at hm
  | cons hd _ ih =>
    cases i with
    | zero =>
      simp at hm
      subst hm
      cases hd with
      | some hd => exact ⟨_, rfl, hd⟩
    | succ i => exact ih (by simpa using hm)

omit [LinearOrder κ] in
theorem same_gone {D : List (Option (κ → Option (κ × β)))} {F : List (Option (κ → Option β))} (h : Same D F) {i : Nat}
    (hm : (D[i]?).join = none) : ∀ f, F[i]? ≠ some (some f) := by
  induction h generalizing i with
  | nil => simp
  | cons hd _ ih =>
    cases i with
    | zero =>
      simp at hm
      subst hm
      cases hd
      simp
    | succ i => simpa using ih (by simpa using hm)

omit [LinearOrder κ] in
theorem same_set {D : List (Option (κ → Option (κ × β)))} {F : List (Option (κ → Option β))} (h : Same D F) (i : Nat) {x y}
    (hx : Option.Rel EntriesOf x y) : Same (D.set i x) (F.set i y) := by
  induction h generalizing i with
  | nil => exact .nil
  | cons hd ht ih =>
    cases i with
    | zero => exact .cons hx ht
    | succ i => exact .cons hd (ih i)

theorem answers_step {D D' : List (Option (κ → Option (κ × β)))} {F : List (Option (κ → Option β))} (h : Same D F) {op : MapOp κ β} {r : Res (κ × β)}
    (ha : Answers Prod.fst true D op.set r D') : mapAnswer r = (step F op).1 ∧ Same D' (step F op).2 := by
  have gone : ∀ i, (D[i]?).join = none → ∀ f, F[i]? ≠ some (some f) := fun i hi => same_gone h hi
  cases op with
  | new =>
    simp only [MapOp.set] at ha
    cases ha with
    | new => exact ⟨rfl, List.rel_append h (.cons (.some (b := fun _ => none) fun _ => rfl) .nil)⟩
    | gone _ hg => simp at hg
  | clone i =>
    simp only [MapOp.set] at ha
    cases ha with
    | clone hm =>
      obtain ⟨f, hf, he⟩ := same_get h hm
      simp only [step, hf]
      exact ⟨rfl, List.rel_append h (.cons (.some he) .nil)⟩
    | gone hj hg =>
      simp at hg
      subst hg
      have := gone _ hj
      simp only [step]
      exact ⟨rfl, h⟩
  | insert i k v =>
    simp only [MapOp.set] at ha
    have put_of : ∀ {m f}, EntriesOf m f → EntriesOf (put Prod.fst m (k, v)) (fun j => if j = k then some v else f j) := by
      intro m f he j
      simp only [put]
      split
      · rename_i e; simp [e]
      · exact he j
    cases ha with
    | fresh hm hn =>
      obtain ⟨f, hf, he⟩ := same_get h hm
      have hk := he k
      rw [show _ = none from hn] at hk
      simp only [step, hf]
      refine ⟨?_, same_set h i (.some (put_of he))⟩
      cases hfk : f k with
      | none => rfl
      | some w => rw [hfk] at hk; simp at hk
    | replaced hm hn =>
      obtain ⟨f, hf, he⟩ := same_get h hm
      have hk := he k
      rw [show _ = some _ from hn] at hk
      simp only [step, hf]
      refine ⟨?_, same_set h i (.some (put_of he))⟩
      cases hfk : f k with
      | none => rw [hfk] at hk; simp at hk
      | some w => rw [hfk] at hk; simp at hk; simp [mapAnswer, hk]
    | rejected _ _ hr => cases hr
    | gone hj hg =>
      simp at hg
      obtain ⟨rfl, _⟩ := hg
      have := gone _ hj
      simp only [step]
      exact ⟨rfl, h⟩
  | get i k =>
    simp only [MapOp.set] at ha
    cases ha with
    | get hm =>
      obtain ⟨f, hf, he⟩ := same_get h hm
      simp only [step, hf]
      refine ⟨?_, h⟩
      rw [mapAnswer, he k]
      cases f k <;> rfl
    | gone hj hg =>
      simp at hg
      obtain ⟨rfl, _⟩ := hg
      have := gone _ hj
      simp only [step]
      exact ⟨rfl, h⟩
  | drop i =>
    simp only [MapOp.set] at ha
    cases ha with
    | drop hm =>
      obtain ⟨f, hf, he⟩ := same_get h hm
      simp only [step, hf]
      exact ⟨rfl, same_set h i .none⟩
    | gone hj hg =>
      simp at hg
      subst hg
      have := gone _ hj
      simp only [step]
      exact ⟨rfl, h⟩

theorem history_spec {D D' : List (Option (κ → Option (κ × β)))} {F : List (Option (κ → Option β))} (h : Same D F) {ops : List (MapOp κ β)}
    {rs : List (Res (κ × β))} (ha : History Prod.fst true D (ops.map MapOp.set) rs D') : rs.map mapAnswer = spec F ops := by
  induction ops generalizing D F rs with
  | nil => cases ha; rfl
  | cons op ops ih =>
    cases ha with
    | cons h1 h2 =>
      obtain ⟨e, hs⟩ := answers_step h h1
      simp only [List.map_cons, spec, e, ih hs h2]

/-- **C28, maps**: whatever is done with any number of `ArcBTreeMap`s and their clones, `get` gives the value that was inserted last under the
key, and `insert` the one that was there before. -/
theorem C28_map {q : Nat} (hq : 1 ≤ q) (ops : List (MapOp κ β)) {fuel : Nat} (hf : ops.length ≤ fuel) :
    mapRun (2 * q + 1) fuel ops = some (spec [] ops) := by
  obtain ⟨rs, s, D, h1, h2⟩ := C28_history (Prod.fst : κ × β → κ) hq true (ops.map MapOp.set) (fuel := fuel) (by simpa using hf)
  simp only [mapRun, h1, Option.map_some, history_spec (D := []) (F := []) .nil h2]

/-- Inserting, replacing, and a clone that keeps the old value. -/
example : mapRun 5 9 [.new, .insert 0 3 'a', .insert 0 1 'b', .clone 0, .insert 0 3 'c', .get 0 3, .get 1 3, .get 0 (2 : Nat), .drop 0] =
    some [none, some none, some none, none, some (some 'a'), some (some 'c'), some (some 'a'), some none, none] :=
  (C28_map (q := 2) (by decide) _ (by simp)).trans rfl

end Verif.Props.BTreeMap
