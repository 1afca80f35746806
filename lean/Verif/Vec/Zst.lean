/-! Executable model of `Vec<T>` for zero-sized `T` (`stabby-abi/src/alloc/vec.rs`).

Such a vector never allocates: `start` is the dangling pointer of `T`, whose address is the alignment of `T`, `end` lies as many *bytes* after it as there are elements, and
`capacity` is the address `usize::MAX`.  The elements cannot be told apart, so the state is the three addresses.  Two readings of pointer arithmetic are
modelled: the language's, in which there is no object that these pointers point into, and the machine's, in which addresses are added and subtracted modulo the number of addresses. -/
namespace Verif.Vec.Zst

/-- What happens: a result, a panic, undefined behaviour; `rejected` programs do not compile. -/
inductive Out (α : Type) where
  | ok (a : α)
  | panic
  | ub
  | rejected
  deriving DecidableEq, Repr

def Out.bind {α β : Type} : Out α → (α → Out β) → Out β
  | .ok a, f => f a
  | .panic, _ => .panic
  | .ub, _ => .ub
  | .rejected, _ => .rejected

/-- How the program is built, whether pointer arithmetic is the language's or the machine's, and the number of addresses (`usize::MAX + 1`). -/
structure Build where
  addrs : Nat
  debug : Bool
  strict : Bool
  deriving DecidableEq, Repr

/-- `VecInner` (vec.rs:24-29), as addresses. -/
structure Z where
  start : Nat
  fin : Nat
  cap : Nat
  deriving DecidableEq, Repr

/-- `FIRST_CAPACITY` (vec.rs:181-185), `none` if the constant cannot be evaluated. -/
def firstCapacity (size : Nat) : Option Nat :=
  if size = 0 then none else
  match 1024 / size with
  | 0 => some 1
  | v => if v ≤ 8 then some v else some 8

/-- Functions that mention `FIRST_CAPACITY` (through `try_grow`, vec.rs:189-196) compile only if it can be evaluated. -/
def needsFirstCapacity {α : Type} (size : Nat) (o : Out α) : Out α := if (firstCapacity size).isSome then o else .rejected

/-- `ptr_diff` (vec.rs:49-57) for a zero-sized type. -/
def ptrDiff (b : Build) (lhs rhs : Nat) : Out Nat :=
  if b.strict && lhs != rhs then .ub
  else
    let d := (lhs + b.addrs - rhs) % b.addrs
    if b.debug && decide (b.addrs / 2 ≤ d) then .panic else .ok d

/-- `ptr_add` (vec.rs:58-64) for a zero-sized type. -/
def ptrAdd (b : Build) (lhs rhs : Nat) : Out Nat :=
  if b.strict && rhs != 0 then .ub else .ok ((lhs + rhs) % b.addrs)

/-- `new_in` (vec.rs:75-89). -/
def new (align : Nat) (b : Build) : Z := ⟨align, align, b.addrs - 1⟩

/-- `len` (vec.rs:133-135). -/
def len (b : Build) (z : Z) : Out Nat := ptrDiff b z.fin z.start

/-- `capacity` (vec.rs:174-176). -/
def capacity (b : Build) (z : Z) : Out Nat := ptrDiff b z.cap z.start

/-- `remaining_capacity` (vec.rs:178-180). -/
def remaining (b : Build) (z : Z) : Out Nat := ptrDiff b z.cap z.fin

/-- `set_len` (vec.rs:144-147). -/
def setLen (b : Build) (z : Z) (n : Nat) : Out Z := (ptrAdd b z.start n).bind fun e => .ok { z with fin := e }

/-- `push` and `try_push` (vec.rs:151-172): they can grow. -/
def push (size : Nat) (b : Build) (z : Z) : Out Z := needsFirstCapacity size ((ptrAdd b z.fin 1).bind fun e => .ok { z with fin := e })

/-- `extend`, `collect` and `deserialize` (vec.rs:554-580, 866-875) push. -/
def extend (size : Nat) (b : Build) (z : Z) (n : Nat) : Out Z := needsFirstCapacity size ((ptrAdd b z.fin n).bind fun e => .ok { z with fin := e })

/-- `try_reserve` (vec.rs:213-243).  When there is not enough room, it reallocates, as the capacity is not zero: the dangling pointer has no prefix. -/
def tryReserve (b : Build) (z : Z) (n : Nat) : Out Nat :=
  (remaining b z).bind fun r =>
    if r < n then
      (len b z).bind fun l =>
        if b.debug && decide (b.addrs ≤ l + n) then .panic
        else (capacity b z).bind fun c => if c ≠ 0 then .ub else .ok ((l + n) % b.addrs)
    else
      (capacity b z).bind fun c => .ok (if c = b.addrs - 1 then c - 1 else c)

/-- `copy_extend` (vec.rs:289-314) with a slice of `n` elements. -/
def copyExtend (b : Build) (z : Z) (n : Nat) : Out Z :=
  if n = 0 then .ok z else
  (tryReserve b z n).bind fun _ => (len b z).bind fun l => setLen b z (l + n)

/-- `with_capacity_in` (vec.rs:94-98). -/
def withCapacity (align : Nat) (b : Build) (n : Nat) : Out Z := (tryReserve b (new align b) n).bind fun _ => .ok (new align b)

/-- `From<&[T]>` (vec.rs:547-553). -/
def ofSlice (align : Nat) (b : Build) (n : Nat) : Out Z := (withCapacity align b n).bind fun z => copyExtend b z n

/-- `Clone` (vec.rs:454-463): the copies are written to `start`, which is aligned. -/
def clone (align : Nat) (b : Build) (z : Z) : Out Z :=
  (len b z).bind fun l => (withCapacity align b l).bind fun r => setLen b r l

/-- `pop` (vec.rs:422-432): the element is read at `end`. -/
def pop (align : Nat) (b : Build) (z : Z) : Out (Bool × Z) :=
  (len b z).bind fun l =>
    if l = 0 then .ok (false, z)
    else if z.fin % align ≠ 0 then .ub
    else (setLen b z (l - 1)).bind fun z => .ok (true, z)

/-- `remove` (vec.rs:390-407): the element is read at `start.add(index)`, which is `start`. -/
def remove (b : Build) (z : Z) (i : Nat) : Out (Bool × Z) :=
  (len b z).bind fun l => if i < l then (setLen b z (l - 1)).bind fun z => .ok (true, z) else .ok (false, z)

/-- `swap_remove` (vec.rs:436-442). -/
def swapRemove (align : Nat) (b : Build) (z : Z) (i : Nat) : Out (Bool × Z) :=
  (len b z).bind fun l => if i < l then pop align b z else .ok (false, z)

/-- `truncate` (vec.rs:247-255). -/
def truncate (b : Build) (z : Z) (n : Nat) : Out Z := (len b z).bind fun l => if l ≤ n then .ok z else setLen b z n

/-- `drain(from..to)` (vec.rs:331-353), which is dropped after any number of elements was taken (vec.rs:722-738). -/
def drain (b : Build) (z : Z) (fro to : Nat) : Out Z :=
  (len b z).bind fun l =>
    if fro ≤ to ∧ to ≤ l then (setLen b z fro).bind fun z => setLen b z (l - to + fro) else .panic

end Verif.Vec.Zst
