import Verif.Macros.TyOps
/-! What an expression given to `tyeval!` looks like and means.  Nothing here uses the parser. -/
namespace Verif.Macros

/-- Angle brackets of a token list are balanced (`d` are open). -/
def balanced : Nat → List Tok → Bool
  | d, [] => d == 0
  | d, .punct c _ :: ts =>
    if c = '<' then balanced (d + 1) ts
    else if c = '>' then (match d with | 0 => false | d + 1 => balanced d ts)
    else balanced d ts
  | d, _ :: ts => balanced d ts

/-- A piece of a path: a name, `::`, or `<…>`.  Spacing flags that do not matter are parameters. -/
inductive PElem where
  | id (s : String)
  | sep (j : Bool)
  | ang (j : Bool) (ts : List Tok) (j' : Bool)

/-- The tokens as written. -/
def PElem.render : PElem → List Tok
  | .id s => [.ident s]
  | .sep j => [.punct ':' true, .punct ':' j]
  | .ang j ts j' => .punct '<' j :: (ts ++ [.punct '>' j'])

/-- The tokens with canonical spacing. -/
def PElem.canon : PElem → List Tok
  | .id s => [.ident s]
  | .sep _ => [.punct ':' true, .punct ':' false]
  | .ang _ ts _ => .punct '<' false :: (ts ++ [.punct '>' false])

def PElem.ok : PElem → Bool
  | .ang _ ts _ => balanced 0 ts
  | _ => true

/-- A path as written. -/
def pathRender (p : List PElem) : List Tok := p.flatMap PElem.render
/-- A path with canonical spacing. -/
def pathCanon (p : List PElem) : List Tok := p.flatMap PElem.canon

/-- Two names are separated by `::` (`a` says whether a name may come). -/
def pathWf : Bool → List PElem → Bool
  | _, [] => true
  | a, .id _ :: p => a && pathWf false p
  | _, .sep _ :: p => pathWf true p
  | a, .ang _ ts _ :: p => balanced 0 ts && pathWf a p

mutual
/-- An expression: one operator at most, whose operands are paths or expressions in parentheses. -/
inductive Src where
  | opd (o : Opd)
  | not (o : Opd)
  | bin (op : BinOp) (j : Bool) (l r : Opd)
  | tern (j : Bool) (c t f : Opd)
inductive Opd where
  | path (p : List PElem)
  | paren (s : Src)
end

/-- The tokens of a binary operator. -/
def BinOp.render (j : Bool) : BinOp → List Tok
  | .add => [.punct '+' j]
  | .sub => [.punct '-' j]
  | .rem => [.punct '%' j]
  | .or => [.punct '|' j]
  | .and => [.punct '&' j]
  | .eq => [.punct '=' true, .punct '=' j]

mutual
/-- The tokens of an expression. -/
def Src.render : Src → List Tok
  | .opd o => o.render
  | .not o => .punct '!' false :: o.render
  | .bin op j l r => l.render ++ (op.render j ++ r.render)
  | .tern j c t f => c.render ++ (.punct '?' j :: (t.render ++ (.punct ':' false :: f.render)))
def Opd.render : Opd → List Tok
  | .path p => pathRender p
  | .paren s => [.group s.render]
end

mutual
/-- The tree of an expression. -/
def Src.tree : Src → TyExpr
  | .opd o => o.tree
  | .not o => .not o.tree
  | .bin op _ l r => .bin op l.tree r.tree
  | .tern _ c t f => .tern c.tree t.tree f.tree
def Opd.tree : Opd → TyExpr
  | .path p => .ty (pathCanon p)
  | .paren s => s.tree
end

mutual
/-- Every path of the expression is a type. -/
def Src.ok (okTy : List Tok → Bool) : Src → Bool
  | .opd o => o.ok okTy
  | .not o => o.ok okTy
  | .bin _ _ l r => l.ok okTy && r.ok okTy
  | .tern _ c t f => c.ok okTy && (t.ok okTy && f.ok okTy)
def Opd.ok (okTy : List Tok → Bool) : Opd → Bool
  | .path p => !p.isEmpty && (pathWf true p && okTy (pathCanon p))
  | .paren s => s.ok okTy
end

/-- Pieces of a sequence that need not be an expression. -/
inductive Chunk where
  | path (p : List PElem)
  | group (ts : List Tok)
  | bin (op : BinOp) (j : Bool)
  | not
  | quest (j : Bool)
  | colon

def Chunk.render : Chunk → List Tok
  | .path p => pathRender p
  | .group ts => [.group ts]
  | .bin op j => op.render j
  | .not => [.punct '!' false]
  | .quest j => [.punct '?' j]
  | .colon => [.punct ':' false]

/-- The piece is an operator. -/
def Chunk.isOp : Chunk → Bool
  | .bin _ _ => true
  | .not => true
  | .quest _ => true
  | _ => false

/-- The piece is an operand. -/
def Chunk.isOpd : Chunk → Bool
  | .path _ => true
  | .group _ => true
  | _ => false

/-- Paths are not empty and their brackets are balanced. -/
def Chunk.ok : Chunk → Bool
  | .path p => !p.isEmpty && p.all PElem.ok
  | _ => true

/-- No two operands are side by side. -/
def apart : List Chunk → Bool
  | a :: b :: cs => !(a.isOpd && b.isOpd) && apart (b :: cs)
  | _ => true

/-- The groups of a sequence. -/
def groupsOf : List Chunk → List (List Tok)
  | [] => []
  | .group ts :: cs => ts :: groupsOf cs
  | _ :: cs => groupsOf cs

/-- The operands of the operator a tree begins with. -/
def TyExpr.operands : TyExpr → List TyExpr
  | .ty _ => []
  | .not e => [e]
  | .tern c t f => [c, t, f]
  | .bin _ l r => [l, r]

/-- The numbers and booleans expressions are about. -/
inductive Val where
  | num (n : Nat)
  | bool (b : Bool)
deriving DecidableEq

/-- The value of a tree, with a meaning for subtraction.  `%` is for powers of two, `?:` chooses between numbers. -/
def TyExpr.value (sub : Nat → Nat → Option Nat) (env : List Tok → Option Val) : TyExpr → Option Val
  | .ty p => env p
  | .not e =>
    match e.value sub env with
    | some (.bool b) => some (.bool !b)
    | _ => none
  | .tern c t f =>
    match c.value sub env, t.value sub env, f.value sub env with
    | some (.bool b), some (.num x), some (.num y) => some (.num (if b then x else y))
    | _, _, _ => none
  | .bin op l r =>
    match l.value sub env, r.value sub env with
    | some (.num x), some (.num y) =>
      match op with
      | .add => some (.num (x + y))
      | .sub => (sub x y).map .num
      | .rem => if y = 2 ^ y.log2 then some (.num (x % y)) else none
      | .or => some (.num (x ||| y))
      | .and => some (.num (x &&& y))
      | .eq => some (.bool (decide (x = y)))
    | _, _ => none

/-- The usual subtraction of naturals. -/
def usualSub (x y : Nat) : Option Nat := if y ≤ x then some (x - y) else none
/-- The distance. -/
def distance (x y : Nat) : Option Nat := some (if y ≤ x then x - y else y - x)

end Verif.Macros
