/-! Model of the canaries (stabby-macros/src/functions.rs:161-305, libloading.rs:109-130): specifications, their iteration, the
names of the symbols, what `#[stabby::export(canaries)]` exports and what `get_canaried` and imports ask for.

Strings are lists of characters.  Failures (`Err`, panics) are `none`. -/
namespace Verif.Macros.Canary

/-- The values of `CanarySpec` (functions.rs:163-171), which wraps a `u16`. -/
def NONE : Nat := 0
def RUSTC : Nat := 1
def OPT_LEVEL : Nat := 1 <<< 1
def DEBUG : Nat := 1 <<< 2
def NUM_JOBS : Nat := 1 <<< 3
def TARGET : Nat := 1 <<< 4
def HOST : Nat := 1 <<< 5
def PARANOID : Nat := 0b111111

/-- `CanarySpec::ARRAY` (functions.rs:172-181). -/
def ARRAY : List (List Char × Nat) :=
  [("paranoid".toList, PARANOID), ("none".toList, NONE), ("rustc".toList, RUSTC), ("opt_level".toList, OPT_LEVEL),
   ("target".toList, TARGET), ("num_jobs".toList, NUM_JOBS), ("debug".toList, DEBUG), ("host".toList, HOST)]

/-- `str::split(',')`. -/
def split : List Char → List (List Char)
  | [] => [[]]
  | c :: s =>
    if c = ',' then [] :: split s
    else match split s with
      | [] => [[c]]
      | r :: rs => (c :: r) :: rs

/-- `str::trim`.  It removes all white space; the only white space that passes the check before is the space. -/
def trim (s : List Char) : List Char := ((s.dropWhile (· == ' ')).reverse.dropWhile (· == ' ')).reverse

/-- `ARRAY.iter().find_map(..)` (functions.rs:197-199). -/
def lookup (request : List Char) : List (List Char × Nat) → Option Nat
  | [] => none
  | (name, spec) :: rest => if name = request then some spec else lookup request rest

/-- The loop over the requests (functions.rs:195-207). -/
def requests : List (List Char) → Nat → Option Nat
  | [], this => some this
  | r :: rs, this =>
    match lookup (trim r) ARRAY with
    | none => none
    | some spec => requests rs (this ||| spec)

/-- `CanarySpec::from_str` (functions.rs:183-209).  `alphabetic` is `char::is_alphabetic`. -/
def fromStr (alphabetic : Char → Bool) (s : List Char) : Option Nat :=
  if s.isEmpty then some PARANOID
  else if s.any (fun c => !(alphabetic c || c == ' ' || c == ',')) then none
  else requests (split s) NONE

/-- Everything the iterator (functions.rs:220-237) yields from `shift` on, `k = 16 - shift`.  The shift of a `u16` by 16 overflows
(a panic, or an endless loop without overflow checks). -/
def iter : (k : Nat) → (spec shift : Nat) → Option (List Nat)
  | 0, _, _ => none
  | k + 1, spec, shift =>
    if 2 ^ shift > spec then some []
    else match iter k spec (shift + 1) with
      | none => none
      | some rest => some (if 2 ^ shift &&& spec ≠ 0 then 2 ^ shift :: rest else rest)

/-- `into_iter` (functions.rs:210-219) and all calls of `next`. -/
def canaries (spec : Nat) : Option (List Nat) := iter 16 spec 0

/-- A digit, as `{}` and `{:x}` write it. -/
def digit (d : Nat) : Char := if d < 10 then Char.ofNat (48 + d) else Char.ofNat (87 + d)

/-- Digits of a number, `fuel` of them at most (the number itself is enough). -/
def digitsFuel (base : Nat) : Nat → Nat → List Char
  | 0, n => [digit n]
  | f + 1, n => if n < base then [digit n] else digitsFuel base f (n / base) ++ [digit (n % base)]
/-- A number in a base. -/
def digits (base n : Nat) : List Char := digitsFuel base n n

/-- The characters `fix` keeps (functions.rs:255). -/
def kept (c : Char) : Bool := c.isAlphanum || c == '_'

/-- `fix` (functions.rs:251-262). -/
def fix : List Char → List Char
  | [] => []
  | c :: s => (if kept c then [c] else '_' :: (digits 16 c.toNat ++ ['_'])) ++ fix s

/-- The environment a build of stabby-macros records (build.rs:22-95). -/
structure Build where
  major : Nat
  minor : Nat
  patch : Nat
  commit : List Char
  optLevel : List Char
  debug : Bool
  numJobs : List Char
  target : List Char
  host : List Char

/-- `this & Self::X` (functions.rs:245-250). -/
def has (this x : Nat) : Bool := this &&& x ≠ 0

/-- `<CanarySpec as Display>::fmt` (functions.rs:263-292).  `&RUSTC_COMMIT[..8]` panics if there are fewer characters. -/
def suffix (b : Build) (this : Nat) : Option (List Char) :=
  if has this RUSTC && b.commit.length < 8 then none else
  some ("_canary".toList ++
    ((if has this RUSTC then "_rustc_".toList ++ (digits 10 b.major ++ '_' :: (digits 10 b.minor ++ '_' :: (digits 10 b.patch ++
      '_' :: b.commit.take 8))) else []) ++
    ((if has this OPT_LEVEL then "_optlevel".toList ++ b.optLevel else []) ++
    ((if has this DEBUG then "_debug".toList ++ [if b.debug then '1' else '0'] else []) ++
    ((if has this NUM_JOBS then "_numjobs".toList ++ b.numJobs else []) ++
    ((if has this TARGET then "_target_".toList ++ fix b.target else []) ++
    (if has this HOST then "_host_".toList ++ fix b.host else [])))))))

/-- All of a list of options, or nothing. -/
def all {α : Type} : List (Option α) → Option (List α)
  | [] => some []
  | none :: _ => none
  | some x :: r => match all r with | none => none | some l => some (x :: l)

/-- The symbols of `#[stabby::export(canaries)] fn ident` (functions.rs:294-305). -/
def exports (b : Build) (ident : List Char) : Option (List (List Char)) :=
  match all ((List.range 6).map fun i => suffix b (1 <<< i)) with
  | none => none
  | some l => some (ident :: l.map (ident ++ ·))

/-- The suffixes `get_canaried` asks for (libloading.rs:114-120), by `canary_suffixes!` (lib.rs:474-482). -/
def required (b : Build) : Option (List (List Char)) :=
  all ([RUSTC, OPT_LEVEL, DEBUG, TARGET, NUM_JOBS].map (suffix b))

/-- `get_canaried` (libloading.rs:109-130) finds the symbol and all canaries in the library's symbols. -/
def getCanaried (b : Build) (lib : List (List Char)) (symbol : List Char) : Option Bool :=
  match required b with
  | none => none
  | some l => some (decide (symbol ∈ lib) && l.all fun s => decide (symbol ++ s ∈ lib))

/-- The symbols `#[stabby::import(canaries = spec)]` makes the linker look for (functions.rs:436-446). -/
def imports (b : Build) (spec : Nat) (ident : List Char) : Option (List (List Char)) :=
  match canaries spec with
  | none => none
  | some l =>
    match all (l.map (suffix b)) with
    | none => none
    | some ss => some (ident :: ss.map (ident ++ ·))

end Verif.Macros.Canary
