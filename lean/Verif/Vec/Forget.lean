import Verif.Vec.Model

/-! Iterators over ranges of vectors that are not dropped. -/
namespace Verif.Vec
variable {α : Type}

/-- `v.drain(from..to)` (vec.rs:331-353), `k` calls to `next` (vec.rs:710-716), then `core::mem::forget` of the `Drain`: its `drop` (vec.rs:723-739)
does not run, and the vector is as it is in the middle of the iteration. -/
def drainForget (s : St α) (fro to k : Nat) : Option (Res α × St α) :=
  match drainNew s fro to with
  | none => some (.panic, s)
  | some d => do
    let (xs, d) ← d.take k
    return (.yielded xs, d.s)

end Verif.Vec
