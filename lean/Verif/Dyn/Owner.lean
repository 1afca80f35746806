/-! Owning trait objects and the pointers inside of them (`stabby-abi/src/fatptr.rs`): which functions get which pointees.

Objects are made of `Box<T>` and `Arc<T>`; objects of `Weak` are the subject of C25, those of references of C44.  Types are numbered, `()` is 0.
`into_super`, `as_ref` and `as_mut` keep pointer and vtable (C42) and are left out, as is what the methods do. -/
namespace Verif.Dyn.Owner

inductive Kind where
  | box | arc
deriving DecidableEq

/-- An allocated value: its type, the strong count (1 for boxes), whether the memory was released, and the types of which the destructor ran on it. -/
structure Cell where
  kind : Kind
  ty : Nat
  strong : Nat
  freed : Bool
  dropped : List Nat
deriving DecidableEq

/-- A variable: a `Dyn<Box<()>, Vt>` or `Dyn<Arc<()>, Vt>` whose vtable was made for the type `vt`, or a plain `Box<()>` or `Arc<()>`. -/
inductive Var where
  | empty
  | dyn (k : Kind) (ptr vt : Nat)
  | raw (k : Kind) (ptr : Nat)
deriving DecidableEq

/-- A call of a method: the type whose code ran, and the pointee it ran on. -/
structure Call where
  fn : Nat
  ptr : Nat
  /-- the type of the pointee, unless it was released already -/
  pointee : Option Nat
deriving DecidableEq

structure St where
  cells : List Cell
  vars : List Var
  calls : List Call

def St.new : St := ⟨[], [], []⟩

/-- What safe code can do. -/
inductive Op where
  /-- `Dyn::from(Box::new(value))`, `Dyn::from(Arc::new(value))` -/
  | make (k : Kind) (ty : Nat)
  /-- `Box::new(())`, `Arc::new(())` -/
  | unit (k : Kind)
  /-- a method of a trait -/
  | call (i : Nat)
  /-- `Dyn::clone`, `Arc::clone` -/
  | clone (i : Nat)
  /-- `Dyn::ptr().clone()` -/
  | clonePtr (i : Nat)
  /-- `mem::swap` of what `Dyn::ptr_mut()` returns for two variables, or for one and a plain pointer -/
  | swap (i j : Nat)
  | drop (i : Nat)

def getVar (s : St) (i : Nat) : Var := s.vars.getD i .empty

/-- `fetch_add(1)` on the strong count (alloc/sync.rs:300-307). -/
def incr (cells : List Cell) (p : Nat) : List Cell := cells.modify p fun c => { c with strong := c.strong + 1 }

/-- Dropping a pointer, with the destructor of `ty`: `IPtrOwned::drop` (alloc/boxed.rs:236-246, alloc/sync.rs:743-757) with the destructor of the
vtable (fatptr.rs:354-360), or `Drop` of `Box<()>` and `Arc<()>` (alloc/boxed.rs:247-256, alloc/sync.rs:285-299).  Without weak handles
the memory is released with the last strong one. -/
def decr (ty : Nat) (c : Cell) : Cell :=
  if c.kind = .arc ∧ c.strong ≠ 1 then { c with strong := c.strong - 1 }
  else { c with strong := c.strong - 1, freed := true, dropped := c.dropped ++ [ty] }

/-- The pointer of a variable after `mem::swap` with another pointer. -/
def setPtr : Var → Nat → Var
  | .empty, _ => .empty
  | .dyn k _ vt, p => .dyn k p vt
  | .raw k _, p => .raw k p

def ptrOf : Var → Option (Kind × Nat)
  | .empty => none
  | .dyn k p _ => some (k, p)
  | .raw k p => some (k, p)

/-- One step.  What does not compile (a call on a plain pointer, cloning a box, swapping a box and an arc, using a variable that was dropped) changes
nothing. -/
def step (s : St) : Op → St
  | .make k ty => { s with cells := s.cells ++ [⟨k, ty, 1, false, []⟩], vars := s.vars ++ [.dyn k s.cells.length ty] }
  | .unit k => { s with cells := s.cells ++ [⟨k, 0, 1, false, []⟩], vars := s.vars ++ [.raw k s.cells.length] }
  | .call i =>
    match getVar s i with
    | .dyn _ p vt =>
      -- the function comes from the vtable, the receiver from the pointer (stabby-macros/src/traits.rs:834, 885)
      let pointee := match s.cells[p]? with
        | some c => if c.freed then none else some c.ty
        | none => none
      { s with calls := s.calls ++ [⟨vt, p, pointee⟩] }
    | _ => s
  | .clone i =>
    -- fatptr.rs:201-209: `IPtrClone::clone` of the pointer, and the same vtable
    match getVar s i with
    | .dyn .arc p vt => { s with cells := incr s.cells p, vars := s.vars ++ [.dyn .arc p vt] }
    | .raw .arc p => { s with cells := incr s.cells p, vars := s.vars ++ [.raw .arc p] }
    | _ => s
  | .clonePtr i =>
    -- fatptr.rs:211-215: `ptr` returns `&Arc<()>`
    match getVar s i with
    | .dyn .arc p _ => { s with cells := incr s.cells p, vars := s.vars ++ [.raw .arc p] }
    | _ => s
  | .swap i j =>
    -- fatptr.rs:216-220: `ptr_mut` returns `&mut P`
    match ptrOf (getVar s i), ptrOf (getVar s j) with
    | some (k, p), some (k', q) =>
      if k = k' ∧ i ≠ j then { s with vars := (s.vars.set i (setPtr (getVar s i) q)).set j (setPtr (getVar s j) p) } else s
    | _, _ => s
  | .drop i =>
    match getVar s i with
    | .dyn _ p vt => { s with cells := s.cells.modify p (decr vt), vars := s.vars.set i .empty }
    | .raw _ p => { s with cells := s.cells.modify p (decr 0), vars := s.vars.set i .empty }
    | .empty => s

def run (s : St) (ops : List Op) : St := ops.foldl step s

end Verif.Dyn.Owner
