/-! The version numbers of the crates (README.md:156-165, release.py:5-14, 35). -/
namespace Verif.Build.Version

/-- A version without its pre-release part, which `factor_version` drops (release.py:13). -/
structure V where
  major : Nat
  minor : Nat
  patch : Nat
  deriving DecidableEq, Repr

/-- The float next to a natural number (53 significant bits, ties to even). -/
def round53 (q : Nat) : Nat :=
  if q < 2 ^ 53 then q
  else
    let e := q.log2 - 52
    let m := q / 2 ^ e
    let r := q % 2 ^ e
    if r < 2 ^ (e - 1) ∨ (r = 2 ^ (e - 1) ∧ m % 2 = 0) then m * 2 ^ e else (m + 1) * 2 ^ e

/-- `x /= base` (release.py:8), which is only reached for multiples: the quotient is a float, or `OverflowError` is raised. -/
def divide (x base : Nat) : Option Nat :=
  let y := round53 (x / base)
  if y < 2 ^ 1024 then some y else none

/-- The loop of `factor` (release.py:7-9).  It ends after at most `x.log2 + 1` steps. -/
def loop (base : Nat) : Nat → Nat → Option Nat
  | 0, _ => some 0
  | fuel + 1, x => if 1 < x ∧ x % base = 0 then (divide x base).bind fun y => (loop base fuel y).map (· + 1) else some 0

/-- `factor` (release.py:5-10) -/
def factor (x base : Nat) : Option Nat := loop base (x.log2 + 1) x

/-- `factor_version` (release.py:12-14), as numbers instead of text. -/
def factorVersion (v : V) (base : Nat) : Option V :=
  match factor v.major base, factor v.minor base, factor v.patch base with
  | some a, some b, some c => some ⟨a, b, c⟩
  | _, _, _ => none

/-- The versions of the API and of the ABI in the header that the script writes into the changelog (release.py:35). -/
def header (v : V) : Option (V × V) :=
  match factorVersion v 2, factorVersion v 3 with
  | some api, some abi => some (api, abi)
  | _, _ => none

end Verif.Build.Version
