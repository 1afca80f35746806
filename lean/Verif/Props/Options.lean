import Verif.Macros.Options
import Mathlib.Data.List.Perm.Basic

/-! C86: the options of the attribute. -/
namespace Verif.Props.Options
open Verif.Macros.Options

/-! ### Specification -/

/-- An option as it is written. -/
inductive Opt where
  | noOpt
  | version (s : Text)
  | module (l : List Tok)
deriving DecidableEq, Repr

def Opt.toks : Opt → List Tok
  | .noOpt => [.id "no_opt".toList]
  | .version s => [.id "version".toList, .eq, .int s]
  | .module l => .id "module".toList :: .eq :: l

/-- Options separated by commas, and maybe one at the end. -/
def print (trailing : Bool) : List Opt → List Tok
  | [] => []
  | [o] => o.toks ++ if trailing then [.comma] else []
  | o :: p :: l => o.toks ++ .comma :: print trailing (p :: l)

/-- Modules are given by expressions, which have no comma outside of brackets. -/
def Opt.Plain : Opt → Prop
  | .module l => .comma ∉ l
  | _ => True

/-- The value of a digit in a base up to 16. -/
def digitValue (c : Char) : Option Nat :=
  if c.isDigit then some (c.toNat - 48)
  else if 97 ≤ c.toNat ∧ c.toNat ≤ 102 then some (c.toNat - 87)
  else if 65 ≤ c.toNat ∧ c.toNat ≤ 70 then some (c.toNat - 55)
  else none

/-- The value of digits and underscores in a base. -/
def value (base : Nat) : Text → Nat → Option Nat
  | [], acc => some acc
  | '_' :: s, acc => value base s acc
  | c :: s, acc => match digitValue c with
    | some d => if d < base then value base s (base * acc + d) else none
    | none => none

/-- The suffixes of integers. -/
def suffixes : List Text := ["u8", "u16", "u32", "u64", "u128", "usize", "i8", "i16", "i32", "i64", "i128", "isize"].map String.toList

/-- A literal is one of Rust's integers with this value: digits after a prefix for the base, underscores, a suffix. -/
def IsInt (s : Text) (n : Nat) : Prop :=
  ∃ digits suffix, suffix ∈ [] :: suffixes ∧
    ((∃ c d, digits = c :: d ∧ c.isDigit ∧ s = digits ++ suffix ∧ value 10 digits 0 = some n) ∨
      (s = '0' :: 'x' :: digits ++ suffix ∧ value 16 digits 0 = some n) ∨
      (s = '0' :: 'o' :: digits ++ suffix ∧ value 8 digits 0 = some n) ∨
      (s = '0' :: 'b' :: digits ++ suffix ∧ value 2 digits 0 = some n))

/-! ### Integers -/

theorem decimal_value : ∀ (s : Text) (acc n : Nat), decimal s acc = some n → value 10 s acc = some n
  | [], _, _, h => h
  | c :: s, acc, n, h => by
    rw [decimal] at h
    by_cases hc : c.isDigit = true
    · rw [if_pos hc] at h
      have hu : c ≠ '_' := by rintro rfl; simp at hc
      have hd : digitValue c = some (c.toNat - 48) := by rw [digitValue, if_pos hc]
      have hl : c.toNat - 48 < 10 := by
        simp [Char.isDigit] at hc
        have h2 : c.toNat ≤ 57 := by exact_mod_cast hc.2
        omega
      rw [value]
      · rw [hd]
        simp only [hl, if_true]
        exact decimal_value s _ n h
      · exact hu
    · rw [if_neg hc] at h
      cases h

theorem decimal_iff : ∀ (s : Text) (acc : Nat), (∃ n, decimal s acc = some n) ↔ ∀ c ∈ s, c.isDigit = true
  | [], acc => by simp [decimal]
  | c :: s, acc => by
    rw [decimal]
    by_cases hc : c.isDigit = true
    · simp [hc, decimal_iff s]
    · simp [hc]

/-- A version that is accepted is the number that is written. -/
theorem C86_version (s : Text) (n : Nat) (hs : ∀ t, s ≠ '+' :: t) (h : parseU32 s = some n) : IsInt s n ∧ n < 2 ^ 32 := by
  have hd : parseU32 s = if s = [] then none else match decimal s 0 with
      | some n => if n < 2 ^ 32 then some n else none
      | none => none := by
    cases s with
    | nil => rfl
    | cons c s =>
      have : c ≠ '+' := fun h => hs s (by rw [h])
      simp only [parseU32]
      split <;> rfl
  rw [hd] at h
  by_cases h0 : s = []
  · simp [h0] at h
  · simp only [h0, if_false] at h
    cases hn : decimal s 0 with
    | none => simp [hn] at h
    | some m =>
      simp only [hn] at h
      by_cases hm : m < 2 ^ 32
      · rw [if_pos hm] at h
        cases h
        obtain ⟨c, d, rfl⟩ := List.exists_cons_of_ne_nil h0
        exact ⟨⟨c :: d, [], by simp, .inl ⟨c, d, rfl, (decimal_iff _ 0).1 ⟨_, hn⟩ c (by simp), by simp, decimal_value _ _ _ hn⟩⟩, hm⟩
      · rw [if_neg hm] at h
        cases h

/-- Exactly plain decimal numbers below 2^32 are accepted. -/
theorem C86_accepts (s : Text) (hs : ∀ t, s ≠ '+' :: t) :
    (∃ n, parseU32 s = some n) ↔ s ≠ [] ∧ (∀ c ∈ s, c.isDigit = true) ∧ ∃ n, value 10 s 0 = some n ∧ n < 2 ^ 32 := by
  have hp : parseU32 s = if s = [] then none else match decimal s 0 with
      | some n => if n < 2 ^ 32 then some n else none
      | none => none := by
    cases s with
    | nil => rfl
    | cons c s =>
      have : c ≠ '+' := fun h => hs s (by rw [h])
      simp only [parseU32]
      split <;> rfl
  rw [hp]
  by_cases h0 : s = []
  · simp [h0]
  · simp only [h0, if_false, ne_eq, not_false_eq_true, true_and]
    rw [← decimal_iff s 0]
    cases hn : decimal s 0 with
    | none => simp
    | some m =>
      simp only [decimal_value _ _ _ hn]
      by_cases hm : m < 2 ^ 32 <;> simp [hm]

/-- Numbers with underscores, suffixes or prefixes for their base are integers to Rust, but make the macro panic. -/
theorem C86_integers_refuted : IsInt "1_000".toList 1000 ∧ IsInt "0x10".toList 16 ∧ IsInt "1u32".toList 1 ∧
    ∀ s ∈ ["1_000", "0x10", "1u32"], ∀ isStruct, parse isStruct (print false [.version s.toList]) = none := by
  refine ⟨⟨"1_000".toList, [], by decide, .inl ⟨'1', "_000".toList, by decide, by decide, by decide, by decide +kernel⟩⟩,
    ⟨"10".toList, [], by decide, .inr (.inl (by decide +kernel))⟩,
    ⟨"1".toList, "u32".toList, by decide, .inl ⟨'1', [], by decide, by decide, by decide, by decide +kernel⟩⟩, by decide +kernel⟩

/-! ### Lists of options -/

/-- What options ask for. -/
def optimizes (l : List Opt) : Bool := decide (Opt.noOpt ∉ l)
def versions (l : List Opt) : List Text := l.filterMap fun o => match o with
  | .version s => some s
  | _ => none
def modules (l : List Opt) : List (List Tok) := l.filterMap fun o => match o with
  | .module m => some m
  | _ => none

/-- What one option does. -/
def apply (isStruct : Bool) (this : Args) : Opt → Option Args
  | .noOpt => if isStruct then some { this with optimize := false } else none
  | .version s => (parseU32 s).map fun v => { this with version := v }
  | .module l => some { this with module := this.module ++ l }

theorem upTo_comma : ∀ (l r : List Tok), .comma ∉ l → upTo (l ++ .comma :: r) = (l, .comma :: r)
  | [], r, _ => rfl
  | t :: l, r, h => by
    simp only [List.mem_cons, not_or] at h
    cases t <;> simp_all [upTo, upTo_comma l r]

theorem upTo_end : ∀ l : List Tok, .comma ∉ l → upTo l = (l, [])
  | [], _ => rfl
  | t :: l, h => by
    simp only [List.mem_cons, not_or] at h
    cases t <;> simp_all [upTo, upTo_end l]

theorem loop_opt (isStruct : Bool) (n : Nat) (o : Opt) (ho : o.Plain) (r : List Tok) (hr : r = [] ∨ ∃ r', r = .comma :: r') (this : Args) :
    loop isStruct (n + 1) (o.toks ++ r) this = (apply isStruct this o).bind (loop isStruct n (comma r)) := by
  have e1 : "no_opt".toList = noOpt := by decide
  have e2 : "version".toList = version := by decide
  have e3 : "module".toList = module_ := by decide
  cases o with
  | noOpt =>
    have h1 : noOpt ≠ version := by decide
    have h2 : noOpt ≠ module_ := by decide
    cases isStruct <;> simp [Opt.toks, e1, loop, apply, h1, h2]
  | version s =>
    have h1 : version ≠ noOpt := by decide
    cases hp : parseU32 s <;> simp [Opt.toks, e2, loop, apply, h1, hp]
  | module l =>
    have h1 : module_ ≠ noOpt := by decide
    have h2 : module_ ≠ version := by decide
    rcases hr with rfl | ⟨r', rfl⟩
    · simp [Opt.toks, e3, loop, apply, h1, h2, upTo_end l ho]
    · simp [Opt.toks, e3, loop, apply, h1, h2, upTo_comma l r' ho]

theorem loop_print (isStruct trailing : Bool) : ∀ (l : List Opt) (n : Nat) (this : Args), (∀ o ∈ l, o.Plain) → l.length < n →
    loop isStruct n (print trailing l) this = l.foldlM (apply isStruct) this
  | [], n + 1, this, _, _ => rfl
  | [o], n + 1, this, h, hn => by
    rw [print, loop_opt isStruct n o (h o (by simp)) _ (by cases trailing <;> simp)]
    have : ∀ this, loop isStruct n (comma (if trailing = true then [.comma] else [])) this = some this := by
      intro this
      obtain ⟨m, rfl⟩ : ∃ m, n = m + 1 := ⟨n - 1, by simp at hn; omega⟩
      cases trailing <;> simp [comma, loop]
    have e : loop isStruct n (comma (if trailing = true then [.comma] else [])) = some := funext this
    rw [e]
    simp
  | o :: p :: l, n + 1, this, h, hn => by
    rw [print, loop_opt isStruct n o (h o (by simp)) _ (by simp), List.foldlM_cons]
    congr 1
    funext this
    rw [comma]
    exact loop_print isStruct trailing (p :: l) n this (fun q hq => h q (by simp [hq])) (by simpa using hn)

theorem length_print (trailing : Bool) : ∀ l : List Opt, l.length ≤ (print trailing l).length
  | [] => by simp
  | [o] => by cases o <;> simp [print, Opt.toks]
  | o :: p :: l => by
    have := length_print trailing (p :: l)
    simp only [List.length_cons] at this
    cases o <;> simp [print, Opt.toks] <;> omega

theorem fold_eq (isStruct : Bool) : ∀ (l : List Opt) (this a : Args), l.foldlM (apply isStruct) this = some a ↔
    (.noOpt ∈ l → isStruct = true) ∧ (∀ s ∈ versions l, parseU32 s ≠ none) ∧
      a.optimize = (this.optimize && optimizes l) ∧ a.version = (((versions l).getLast?).bind parseU32).getD this.version ∧
      a.module = this.module ++ (modules l).flatten
  | [], this, a => by
    cases a; cases this
    simp [versions, modules, optimizes, eq_comm]
  | o :: l, this, a => by
    rw [List.foldlM_cons, Option.bind_eq_bind, Option.bind_eq_some_iff]
    simp only [fold_eq isStruct l]
    cases o with
    | noOpt =>
      have h1 : versions (.noOpt :: l) = versions l := rfl
      have h2 : modules (.noOpt :: l) = modules l := rfl
      cases isStruct <;> simp [apply, h1, h2, optimizes]
    | version s =>
      have h1 : versions (.version s :: l) = s :: versions l := rfl
      have h2 : modules (.version s :: l) = modules l := rfl
      have h3 : optimizes (.version s :: l) = optimizes l := by simp [optimizes]
      rw [h1, h2, h3]
      cases hp : parseU32 s with
      | none => simp [apply, hp]
      | some v =>
        simp only [apply, hp, Option.map_some, Option.some.injEq, exists_eq_left', List.mem_cons, reduceCtorEq, false_or, forall_eq_or_imp, ne_eq,
          not_false_eq_true, true_and]
        refine and_congr_right fun _ => and_congr_right fun hv => and_congr_right fun _ => and_congr_left fun _ => ?_
        cases hl : versions l with
        | nil => simp [hp]
        | cons x xs =>
          have hne : (x :: xs).getLast? = some ((x :: xs).getLast (by simp)) := List.getLast?_eq_getLast_of_ne_nil (by simp)
          have hne' : (s :: x :: xs).getLast? = some ((x :: xs).getLast (by simp)) := by rw [List.getLast?_cons_cons, hne]
          rw [hne, hne']
          have := hv ((x :: xs).getLast (by simp)) (by rw [hl]; exact List.getLast_mem (by simp))
          obtain ⟨w, hw⟩ := Option.ne_none_iff_exists'.1 this
          simp [hw]
    | module m =>
      have h1 : versions (.module m :: l) = versions l := rfl
      have h2 : modules (.module m :: l) = m :: modules l := rfl
      have h3 : optimizes (.module m :: l) = optimizes l := by simp [optimizes]
      rw [h1, h2, h3]
      simp [apply, List.append_assoc]

/-- What a list of options means: no option is unknown (`no_opt` is for structs), all versions are numbers, the last of which counts; the tokens of all
modules follow each other. -/
theorem C86_options (isStruct trailing : Bool) (l : List Opt) (hl : ∀ o ∈ l, o.Plain) (a : Args) : parse isStruct (print trailing l) = some a ↔
    (.noOpt ∈ l → isStruct = true) ∧ (∀ s ∈ versions l, parseU32 s ≠ none) ∧
      a.optimize = decide (Opt.noOpt ∉ l) ∧ a.version = (((versions l).getLast?).bind parseU32).getD 0 ∧ a.module = (modules l).flatten := by
  rw [parse, loop_print isStruct trailing l _ _ hl (by have := length_print trailing l; omega), fold_eq]
  simp [optimizes]

/-- The order of options doesn't matter if each is given once. -/
theorem C86_order (isStruct trailing trailing' : Bool) (l l' : List Opt) (hl : ∀ o ∈ l, o.Plain) (hp : l.Perm l') (hv : (versions l).length ≤ 1)
    (hm : (modules l).length ≤ 1) : parse isStruct (print trailing l) = parse isStruct (print trailing' l') := by
  have one : ∀ {α : Type} (x y : List α), x.length ≤ 1 → x.Perm y → x = y := by
    intro α x y hx hxy
    match x, hx with
    | [], _ => exact hxy.nil_eq
    | [a], _ => exact (List.perm_singleton.1 hxy.symm).symm
  have h1 : versions l = versions l' := one _ _ hv (hp.filterMap _)
  have h2 : modules l = modules l' := one _ _ hm (hp.filterMap _)
  apply Option.ext
  intro a
  rw [C86_options isStruct trailing l hl, C86_options isStruct trailing' l' (fun o ho => hl o (hp.mem_iff.2 ho)), h1, h2]
  simp only [hp.mem_iff]

/-- The report names the module that is given, or else the one that the type is in. -/
theorem C86_module (isStruct trailing : Bool) (l : List Opt) (hl : ∀ o ∈ l, o.Plain) (a : Args) (h : parse isStruct (print trailing l) = some a) :
    (modules l = [] → a.reported = .path) ∧ (∀ m, modules l = [m] → m ≠ [] → a.reported = .tokens m) := by
  obtain ⟨-, -, -, -, hm⟩ := (C86_options isStruct trailing l hl a).1 h
  constructor
  · intro h0
    simp [Args.reported, hm, h0]
  · intro m h1 hne
    simp [Args.reported, hm, h1, hne]

/-- Modules that are given twice are glued together, and a version after a module without a comma becomes a part of it: its number is lost, without an
error from the macro. -/
theorem C86_glued_refuted (isStruct : Bool) (m m' : List Tok) (hm : .comma ∉ m) (hm' : .comma ∉ m') (v : Text) :
    parse isStruct (print false [.module m, .module m']) = some ⟨true, 0, m ++ m'⟩ ∧
    parse isStruct ((Opt.module m).toks ++ (Opt.version v).toks) = some ⟨true, 0, m ++ (Opt.version v).toks⟩ := by
  constructor
  · rw [C86_options isStruct false _ (by simp [Opt.Plain, hm, hm'])]
    simp [versions, modules]
  · have := (C86_options isStruct false [.module (m ++ (Opt.version v).toks)] (by simp [Opt.Plain, hm, Opt.toks]) ⟨true, 0, m ++ (Opt.version v).toks⟩).2
      (by simp [versions, modules])
    simpa [print, Opt.toks] using this

/-! ### Functions -/

/-- An attribute of a function as it is written. -/
inductive FnOpt where
  | unsend
  | unsync
  | lt (s : Text)
deriving DecidableEq, Repr

def FnOpt.tok : FnOpt → Tok
  | .unsend => .id "unsend".toList
  | .unsync => .id "unsync".toList
  | .lt s => .lt s

def printFn (trailing : Bool) : List FnOpt → List Tok
  | [] => []
  | [o] => o.tok :: if trailing then [.comma] else []
  | o :: p :: l => o.tok :: .comma :: printFn trailing (p :: l)

def lifetimes (l : List FnOpt) : List Text := l.filterMap fun o => match o with
  | .lt s => some s
  | _ => none

/-- Attributes of functions, in any order and number: whether `unsend` and `unsync` are there, and the last lifetime. -/
theorem C86_functions (trailing : Bool) (l : List FnOpt) :
    attrs (printFn trailing l) ⟨false, false, none⟩ = some ⟨decide (.unsend ∈ l), decide (.unsync ∈ l), (lifetimes l).getLast?⟩ := by
  have : ∀ (l : List FnOpt) (this : Attrs), attrs (printFn trailing l) this =
      some ⟨this.unsend || decide (.unsend ∈ l), this.unsync || decide (.unsync ∈ l), (lifetimes l).getLast?.or this.lt⟩ := by
    have e1 : "unsend".toList = unsend := by decide
    have e2 : "unsync".toList = unsync := by decide
    have ne : unsync ≠ unsend := by decide
    intro l
    induction l with
    | nil => simp [printFn, attrs, lifetimes]
    | cons o l ih =>
      intro this
      cases l with
      | nil =>
        cases o <;> cases trailing <;> simp [printFn, FnOpt.tok, attrs, attr, lifetimes, e1, e2, ne]
      | cons p l =>
        rw [printFn]
        cases o with
        | unsend => simp [FnOpt.tok, attrs, attr, e1, ih, lifetimes]
        | unsync => simp [FnOpt.tok, attrs, attr, e2, ne, ih, lifetimes]
        | lt s =>
          have hlt : lifetimes (.lt s :: p :: l) = s :: lifetimes (p :: l) := rfl
          simp only [FnOpt.tok, attrs, attr, ih, hlt]
          cases hq : lifetimes (p :: l) with
          | nil => simp
          | cons x xs =>
            rw [List.getLast?_cons_cons, List.getLast?_eq_getLast_of_ne_nil (by simp : x :: xs ≠ [])]
            simp
  simpa using this l ⟨false, false, none⟩

/-! ### Examples -/

example : parse true (print true [.module [.tree 0], .noOpt, .version "12".toList]) = some ⟨false, 12, [.tree 0]⟩ := by decide +kernel
example : parse false (print false [.noOpt]) = none := by decide +kernel
example : ∀ o ∈ [Opt.module [.tree 0], .noOpt, .version "12".toList], o.Plain := by simp [Opt.Plain]
example : parseU32 "4294967295".toList = some 4294967295 ∧ parseU32 "4294967296".toList = none := by decide +kernel
example : attrs (printFn false [.lt ['a'], .unsync]) ⟨false, false, none⟩ = some ⟨false, true, some ['a']⟩ := by decide +kernel

end Verif.Props.Options
