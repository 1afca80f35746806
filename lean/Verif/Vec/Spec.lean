import Verif.Vec.Model

/-! What a vector is expected to do, in terms of mathematical sequences. -/
namespace Verif.Vec
variable {α : Type}

/-- What operation `op` may report (`r`) and leave (`l'`) on the sequence `l`; `refused` says whether the allocator refused a
request made by the operation. -/
def Spec (op : Op α) (refused : Bool) (l : List α) (r : Res α) (l' : List α) : Prop :=
  match op with
  | .push x => if refused then r = .panic ∧ l' = l else r = .unit ∧ l' = l ++ [x]
  | .tryPush x => if refused then r = .back x ∧ l' = l else r = .unit ∧ l' = l ++ [x]
  | .pop => r = .moved l.getLast? ∧ l' = l.dropLast
  | .remove i => r = .moved l[i]? ∧ l' = l.eraseIdx i
  | .swap i j =>
    if h : i < l.length ∧ j < l.length then r = .unit ∧ l' = (l.set i l[j]).set j l[i] else r = .panic ∧ l' = l
  | .swapRemove i =>
    r = .moved l[i]? ∧
      l' = if h : i < l.length then (l.set i (l[l.length - 1]'(by omega))).dropLast else l
  | .truncate n => r = .unit ∧ l' = l.take n
  | .reserve _ => r = (if refused then .panic else .unit) ∧ l' = l
  | .tryReserve _ => r = (if refused then .allocErr else .unit) ∧ l' = l
  | .copyExtend xs => if refused then r = .allocErr ∧ l' = l else r = .unit ∧ l' = l ++ xs
  | .extend xs _ _ =>
    if refused then r = .panic ∧ ∃ k, k ≤ xs.length ∧ l' = l ++ xs.take k else r = .unit ∧ l' = l ++ xs
  | .asSlice => r = .refs l ∧ l' = l
  | .index i => r = (match l[i]? with | some x => .refs [x] | none => .panic) ∧ l' = l
  | .len => r = .count l.length ∧ l' = l
  | .drain f t k stop =>
    if f ≤ t ∧ t ≤ l.length then
      r = .yielded (((l.take t).drop f).take k) ∧ l' = l.take f ++ l.drop (if stop then min (f + k) t else t)
    else r = .panic ∧ l' = l
  | .intoIter k => r = .yielded (l.take k) ∧ l' = []
  | .replace _ => if refused then r = .panic ∧ l' = l else r = .unit ∧ l' = []
  | .drop => r = .unit ∧ l' = []

/-- The elements handed to the vector by the operation. -/
def Op.ins : Op α → List α
  | .push x | .tryPush x => [x]
  | .copyExtend l | .extend l _ _ => l
  | _ => []

/-- The elements handed to the caller: `copy_extend` takes copies, so a failed one leaves them with the caller. -/
def outs : Op α → Res α → List α
  | _, .moved (some x) => [x]
  | _, .back x => [x]
  | _, .yielded l => l
  | .copyExtend l, .allocErr => l
  | _, _ => []

/-- Requests stay below half of the address space, and iterators respect their upper bounds. -/
def Args (e : Env) : Op α → Prop
  | .reserve n | .tryReserve n | .replace n => e.esz * n < 9223372036854775808
  | .copyExtend l => e.esz * l.length < 9223372036854775808
  | .extend l lo hi => e.esz * lo < 9223372036854775808 ∧
    ∀ h, hi = some h → l.length ≤ h ∧ e.esz * h < 9223372036854775808
  | _ => True

/-- A history of results allowed by the specification, from `l` to `l'`; `flags` says which operations met a refusal. -/
def SpecRun : List (Op α) → List Bool → List α → List (Res α) → List α → Prop
  | [], [], l, [], l' => l' = l
  | op :: ops, f :: fs, l, r :: rs, l' => ∃ m, Spec op f l r m ∧ SpecRun ops fs m rs l'
  | _, _, _, _, _ => False

end Verif.Vec
