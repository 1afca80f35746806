import Verif.Layout.Model

/-! `Includes<SubSet>` (stabby-abi/src/istable.rs:441-524): "whether or not a value is included in a set", for masks of bits. -/
namespace Verif.Layout

/-- `IncludesComputer<(O1, T1)>` (istable.rs:491-524) for the set `Array<O2, T2, R2>`; `none`: not implemented, which is the case for `End`, and `some none`:
`End`. -/
def computer : Mask → Nat × Byte → Option (Option (Nat × Byte))
  | [], _ => none
  | (o, t) :: r, x => if x.1 = o then (if t = 255 then some (some x) else some none) else computer r x

/-- `Arrayify` (istable.rs:467-484) for `(x, tail, tail: IsEnd, rest: IsEnd)`; `IsEnd` is istable.rs:372-382. -/
def arrayify (x : Option (Nat × Byte)) (tail : Mask) (tailEnd restEnd : Bool) : Option Mask :=
  match x, tailEnd, restEnd with
  | some x, true, true => if tail = [] then some [x] else none
  | some _, true, false => if tail = [] then some [] else none
  | some x, false, false => some (x :: tail)
  | some _, false, true => none
  | none, _, _ => some []

/-- `Includes<SubSet>::Output` (istable.rs:441-466); `none`: not implemented. -/
def includes (set : Mask) : Mask → Option Mask
  | [] => some []
  | x :: rest =>
    if set = [] then some []
    else do
      let tail ← includes set rest
      arrayify (← computer set x) tail (tail == []) (rest == [])

end Verif.Layout
