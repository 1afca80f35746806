import Verif.Build.Names
import Verif.Typenum.Spec
import Verif.Typenum.Lemmas
import Mathlib.Data.List.Nodup
import Mathlib.Data.List.Range
import Mathlib.Data.Nat.Prime.Basic
/-! C100: the names generated for numbers and tuples mean what they say. -/
namespace Verif.Props.Names
open Verif.Typenum Verif.Build

/-! ## Specification: what names and type expressions mean, read from the left -/

/-- The value of a digit. -/
def dval (c : Char) : Option Nat :=
  let i := ['0', '1', '2', '3', '4', '5', '6', '7', '8', '9', 'A', 'B', 'C', 'D', 'E', 'F'].idxOf c
  if i < 16 then some i else none

/-- Reading a numeral in base `b` after `v` has been read. -/
def readFrom (b : Nat) : Nat → Text → Option Nat
  | v, [] => some v
  | v, c :: cs => match dval c with
    | some d => if d < b then readFrom b (v * b + d) cs else none
    | none => none

/-- A numeral in base `b`. -/
def numeral (b : Nat) : Text → Option Nat
  | [] => none
  | c :: cs => readFrom b 0 (c :: cs)

/-- The number a name stands for: `U10pow{i}`, `U2pow{i}`, `Ux` hexadecimal, `Ub` binary, `U` decimal. -/
def meaning : Text → Option Nat
  | 'U' :: '1' :: '0' :: 'p' :: 'o' :: 'w' :: r => (numeral 10 r).map (10 ^ ·)
  | 'U' :: '2' :: 'p' :: 'o' :: 'w' :: r => (numeral 10 r).map (2 ^ ·)
  | 'U' :: 'x' :: r => numeral 16 r
  | 'U' :: 'b' :: r => numeral 2 r
  | 'U' :: r => numeral 10 r
  | _ => none

/-- Parsing a type expression at the front of a text: `UTerm`, or `UInt<T, B0>`, `UInt<T, B1>`; at most `f` nested. -/
def parse : Nat → Text → Option (U × Text)
  | 0, _ => none
  | _+1, 'U' :: 'T' :: 'e' :: 'r' :: 'm' :: r => some (.term, r)
  | f+1, 'U' :: 'I' :: 'n' :: 't' :: '<' :: r => match parse f r with
    | some (m, ',' :: ' ' :: 'B' :: '0' :: '>' :: r') => some (.int m false, r')
    | some (m, ',' :: ' ' :: 'B' :: '1' :: '>' :: r') => some (.int m true, r')
    | _ => none
  | _+1, _ => none

/-- The type a text denotes. -/
def denotes (s : Text) : Option U := match parse s.length s with
  | some (t, []) => some t
  | _ => none

/-! ## Numerals -/

theorem dval_digit : ∀ d < 16, dval (digit d) = some d := by decide +kernel

theorem readFrom_fmtLoop (b : Nat) (h2 : 2 ≤ b) (h16 : b ≤ 16) : ∀ f n acc, n < f →
    readFrom b 0 (fmtLoop b f n acc) = readFrom b n acc := by
  intro f
  induction f with
  | zero => intro n acc h; omega
  | succ f ih =>
    intro n acc h
    have hm : n % b < b := Nat.mod_lt _ (by omega)
    have hd := dval_digit (n % b) (by omega)
    rw [fmtLoop]
    by_cases hz : n / b = 0
    · rw [if_pos hz, readFrom, hd]
      have : n % b = n := by
        have := Nat.div_add_mod n b
        rw [hz] at this; omega
      rw [this] at hm ⊢
      simp only [Nat.zero_mul, Nat.zero_add, hm, if_true]
    · rw [if_neg hz, ih]
      · rw [readFrom, hd]
        simp only [hm, if_true]
        rw [Nat.mul_comm, Nat.div_add_mod]
      · have : n / b < n := Nat.div_lt_self (by
          rcases Nat.eq_zero_or_pos n with h0 | h0
          · subst h0; simp at hz
          · exact h0) (by omega)
        omega

theorem fmtLoop_ne_nil (b : Nat) : ∀ f n acc, 0 < f ∨ acc ≠ [] → fmtLoop b f n acc ≠ [] := by
  intro f
  induction f with
  | zero => intro n acc h; rcases h with h | h; · omega
            · exact h
  | succ f ih =>
    intro n acc _
    rw [fmtLoop]
    split
    · simp
    · exact ih _ _ (.inr (by simp))

theorem numeral_fmt (b n : Nat) (h2 : 2 ≤ b) (h16 : b ≤ 16) : numeral b (fmt b n) = some n := by
  have h := readFrom_fmtLoop b h2 h16 (n + 1) n [] (by omega)
  have hne := fmtLoop_ne_nil b (n + 1) n [] (.inl (by omega))
  rw [fmt]
  cases hx : fmtLoop b (n + 1) n [] with
  | nil => exact absurd hx hne
  | cons c cs => rw [hx] at h; rw [numeral, h]; rfl

theorem fmt_inj (b : Nat) (h2 : 2 ≤ b) (h16 : b ≤ 16) {n m : Nat} (h : fmt b n = fmt b m) : n = m := by
  have hn := numeral_fmt b n h2 h16
  rw [h, numeral_fmt b m h2 h16] at hn
  exact (Option.some.inj hn).symm

/-! ## Names -/

/-- The forms of names. -/
inductive Form where
  | dec | hex | bin | ten | two
  deriving DecidableEq

/-- The name of form `f` with numeral `n`. -/
def nameOf : Form → Nat → Text
  | .dec, n => 'U' :: fmt 10 n
  | .hex, n => 'U' :: 'x' :: fmt 16 n
  | .bin, n => 'U' :: 'b' :: fmt 2 n
  | .ten, n => ['U', '1', '0', 'p', 'o', 'w'] ++ fmt 10 n
  | .two, n => ['U', '2', 'p', 'o', 'w'] ++ fmt 10 n

theorem dec_ne (n : Nat) (s : Text) (h : numeral 10 s = none) : fmt 10 n ≠ s := by
  intro e
  rw [← e, numeral_fmt 10 n (by omega) (by omega)] at h
  simp at h

theorem num_bad (c : Char) (s : Text) (h : dval c = none) : numeral 10 (c :: s) = none := by
  simp [numeral, readFrom, h]

theorem num_bad1 (c d : Char) (s : Text) (h : dval d = none) : numeral 10 (c :: d :: s) = none := by
  simp only [numeral, readFrom, h]
  split
  · split <;> rfl
  · rfl

theorem num_bad2 (a c d : Char) (s : Text) (h : dval d = none) : numeral 10 (a :: c :: d :: s) = none := by
  simp only [numeral, readFrom, h]
  split
  · split
    · split
      · split <;> rfl
      · rfl
    · rfl
  · rfl

theorem nameOf_inj {f g : Form} {n m : Nat} (h : nameOf f n = nameOf g m) : f = g ∧ n = m := by
  have x : dval 'x' = none := by decide
  have b : dval 'b' = none := by decide
  have p : dval 'p' = none := by decide
  cases f <;> cases g <;> simp only [nameOf, List.cons_append, List.nil_append, List.cons.injEq, true_and] at h
  · exact ⟨rfl, fmt_inj 10 (by omega) (by omega) h⟩
  · exact absurd h (dec_ne n _ (num_bad _ _ x))
  · exact absurd h (dec_ne n _ (num_bad _ _ b))
  · exact absurd h (dec_ne n _ (num_bad2 _ _ _ _ p))
  · exact absurd h (dec_ne n _ (num_bad1 _ _ _ p))
  · exact absurd h.symm (dec_ne m _ (num_bad _ _ x))
  · exact ⟨rfl, fmt_inj 16 (by omega) (by omega) h⟩
  · exact absurd h.1 (by decide)
  · exact absurd h.1 (by decide)
  · exact absurd h.1 (by decide)
  · exact absurd h.symm (dec_ne m _ (num_bad _ _ b))
  · exact absurd h.1 (by decide)
  · exact ⟨rfl, fmt_inj 2 (by omega) (by omega) h⟩
  · exact absurd h.1 (by decide)
  · exact absurd h.1 (by decide)
  · exact absurd h.symm (dec_ne m _ (num_bad2 _ _ _ _ p))
  · exact absurd h.1 (by decide)
  · exact absurd h.1 (by decide)
  · exact ⟨rfl, fmt_inj 10 (by omega) (by omega) h⟩
  · exact absurd h.1 (by decide)
  · exact absurd h.symm (dec_ne m _ (num_bad1 _ _ _ p))
  · exact absurd h.1 (by decide)
  · exact absurd h.1 (by decide)
  · exact absurd h.1 (by decide)
  · exact ⟨rfl, fmt_inj 10 (by omega) (by omega) h⟩

/-- A decimal name is not taken for another form. -/
theorem meaning_dec (n : Nat) : meaning ('U' :: fmt 10 n) = some n := by
  have x : dval 'x' = none := by decide
  have b : dval 'b' = none := by decide
  have p : dval 'p' = none := by decide
  have key : ∀ s, fmt 10 n = s → meaning ('U' :: s) = numeral 10 s := by
    intro s hs
    unfold meaning
    split
    · rename_i r e
      simp only [List.cons.injEq, true_and] at e
      exact absurd (hs.trans e) (dec_ne n _ (num_bad2 _ _ _ _ p))
    · rename_i r e
      simp only [List.cons.injEq, true_and] at e
      exact absurd (hs.trans e) (dec_ne n _ (num_bad1 _ _ _ p))
    · rename_i r e
      simp only [List.cons.injEq, true_and] at e
      exact absurd (hs.trans e) (dec_ne n _ (num_bad _ _ x))
    · rename_i r e
      simp only [List.cons.injEq, true_and] at e
      exact absurd (hs.trans e) (dec_ne n _ (num_bad _ _ b))
    · rename_i r _ _ _ _ e
      simp only [List.cons.injEq, true_and] at e
      rw [e]
    · rename_i e
      exact absurd rfl (e s)
  rw [key _ rfl, numeral_fmt 10 n (by omega) (by omega)]

theorem meaning_nameOf (f : Form) (n : Nat) : meaning (nameOf f n) =
    some (match f with | .ten => 10 ^ n | .two => 2 ^ n | _ => n) := by
  cases f
  · exact meaning_dec n
  · exact numeral_fmt 16 n (by omega) (by omega)
  · exact numeral_fmt 2 n (by omega) (by omega)
  · exact congrArg (Option.map (10 ^ ·)) (numeral_fmt 10 n (by omega) (by omega))
  · exact congrArg (Option.map (2 ^ ·)) (numeral_fmt 10 n (by omega) (by omega))

/-! ## Types -/

/-- The text of a type (used in proofs only). -/
def render : U → Text
  | .term => ['U', 'T', 'e', 'r', 'm']
  | .int m b => wrap (render m) b

theorem wrap_eq (s : Text) (b : Bool) : wrap s b =
    'U' :: 'I' :: 'n' :: 't' :: '<' :: (s ++ [',', ' ', 'B', if b then '1' else '0', '>']) := by
  cases b <;> simp [wrap, show fmt 10 0 = ['0'] from by decide, show fmt 10 1 = ['1'] from by decide]

theorem u_eq_render (i : Nat) : u i = render (U.ofNat i) := by
  rw [u, U.ofNat]
  generalize (U.bitsOf i).reverse = l
  have : ∀ (l : List Bool) (t : U), l.foldl wrap (render t) = render (l.foldl (fun r b => U.int r b) t) := by
    intro l
    induction l with
    | nil => intro t; rfl
    | cons b l ih => intro t; exact ih (U.int t b)
  exact this l .term

theorem parse_render : ∀ (t : U) (f : Nat) (rest : Text), (render t).length ≤ f →
    parse f (render t ++ rest) = some (t, rest) := by
  intro t
  induction t with
  | term =>
    intro f rest h
    cases f with
    | zero => simp [render] at h
    | succ f => rfl
  | int m b ih =>
    intro f rest h
    rw [render, wrap_eq] at h ⊢
    cases f with
    | zero => simp at h
    | succ f =>
      simp only [List.length_cons, List.length_append] at h
      simp only [List.cons_append, List.append_assoc]
      have hp := ih f ([',', ' ', 'B', if b then '1' else '0', '>'] ++ rest) (by omega)
      rw [parse]
      cases b
      · have : parse f (render m ++ [',', ' ', 'B', '0', '>'] ++ rest) = some (m, [',', ' ', 'B', '0', '>'] ++ rest) := by rw [List.append_assoc]; exact hp
        simp only [List.append_assoc, List.cons_append, List.nil_append] at this
        simp only [Bool.false_eq_true, if_false, List.nil_append, this]
      · have : parse f (render m ++ [',', ' ', 'B', '1', '>'] ++ rest) = some (m, [',', ' ', 'B', '1', '>'] ++ rest) := by rw [List.append_assoc]; exact hp
        simp only [List.append_assoc, List.cons_append, List.nil_append] at this
        simp only [if_true, List.nil_append, this]

theorem denotes_u (i : Nat) : denotes (u i) = some (U.ofNat i) := by
  have h := parse_render (U.ofNat i) (render (U.ofNat i)).length [] (Nat.le_refl _)
  rw [List.append_nil] at h
  rw [denotes, u_eq_render, h]

/-! ## The generated file -/

theorem mem_aliases (m d p : Nat) (a : Alias) : a ∈ aliases m d p ↔
    (∃ i, i ≤ m ∧ ∃ f ∈ [Form.dec, .hex, .bin], a = ⟨fmt 10 i, nameOf f i, u i⟩) ∨
    (∃ i, i < d ∧ (a = ⟨fmt 10 i, nameOf .ten i, u (10 ^ i)⟩ ∨
      m < 10 ^ i ∧ ∃ f ∈ [Form.dec, .hex, .bin], a = ⟨fmt 10 i, nameOf f (10 ^ i), u (10 ^ i)⟩)) ∨
    (∃ i, i < p ∧ (a = ⟨fmt 10 i, nameOf .two i, u (2 ^ i)⟩ ∨
      m < 2 ^ i ∧ a = ⟨fmt 10 i, nameOf .dec (2 ^ i), u (2 ^ i)⟩)) := by
  rw [aliases, List.mem_append, List.mem_append, or_assoc]
  refine or_congr ?_ (or_congr ?_ ?_)
  · simp only [seqAliases, List.mem_flatMap, List.mem_range, Nat.lt_succ_iff, List.mem_cons, List.not_mem_nil, or_false]
    refine exists_congr fun i => and_congr_right fun _ => ?_
    constructor
    · rintro (h | h | h)
      · exact ⟨.dec, by simp, h⟩
      · exact ⟨.hex, by simp, h⟩
      · exact ⟨.bin, by simp, h⟩
    · rintro ⟨f, (rfl | rfl | rfl), h⟩
      · exact .inl h
      · exact .inr (.inl h)
      · exact .inr (.inr h)
  · simp only [tenAliases, List.mem_flatMap, List.mem_range, List.mem_cons]
    refine exists_congr fun i => and_congr_right fun _ => or_congr Iff.rfl ?_
    by_cases hm : m < 10 ^ i
    · simp only [hm, if_true, true_and, List.mem_cons, List.not_mem_nil, or_false]
      constructor
      · rintro (h | h | h)
        · exact ⟨.dec, by simp, h⟩
        · exact ⟨.hex, by simp, h⟩
        · exact ⟨.bin, by simp, h⟩
      · rintro ⟨f, (rfl | rfl | rfl), h⟩
        · exact .inl h
        · exact .inr (.inl h)
        · exact .inr (.inr h)
    · simp [hm]
  · simp only [twoAliases, List.mem_flatMap, List.mem_range, List.mem_cons]
    refine exists_congr fun i => and_congr_right fun _ => or_congr Iff.rfl ?_
    by_cases hm : m < 2 ^ i
    · simp only [hm, if_true, true_and, List.mem_cons, List.not_mem_nil, or_false]; exact Iff.rfl
    · simp [hm]

/-- C100: every alias, whatever the bounds of the loops, is a type expression for the number its name says, in canonical spelling. -/
theorem C100_names (m d p : Nat) (a : Alias) (h : a ∈ aliases m d p) :
    ∃ n t, meaning a.name = some n ∧ denotes a.ty = some t ∧ t.val = n ∧ t.Canonical := by
  have key : ∀ n, (U.ofNat n).val = n ∧ (U.ofNat n).Canonical := U.bitsOf_fold
  rcases (mem_aliases m d p a).1 h with ⟨i, _, f, hf, rfl⟩ | ⟨i, _, rfl | ⟨_, f, hf, rfl⟩⟩ | ⟨i, _, rfl | ⟨_, rfl⟩⟩
  · refine ⟨i, U.ofNat i, ?_, denotes_u i, key i⟩
    rw [meaning_nameOf]; simp only [List.mem_cons, List.not_mem_nil, or_false] at hf
    rcases hf with rfl | rfl | rfl <;> rfl
  · exact ⟨10 ^ i, U.ofNat _, meaning_nameOf .ten i, denotes_u _, key _⟩
  · refine ⟨10 ^ i, U.ofNat _, ?_, denotes_u _, key _⟩
    rw [meaning_nameOf]; simp only [List.mem_cons, List.not_mem_nil, or_false] at hf
    rcases hf with rfl | rfl | rfl <;> rfl
  · exact ⟨2 ^ i, U.ofNat _, meaning_nameOf .two i, denotes_u _, key _⟩
  · exact ⟨2 ^ i, U.ofNat _, meaning_nameOf .dec (2 ^ i), denotes_u _, key _⟩

/-- C100: in the generated file, no number overflows the `u128` it is computed in (so `10u128.pow(i)` does not panic and `1 << i` loses no bit). -/
theorem C100_u128 (a : Alias) (h : a ∈ unsignedRs) : ∃ n, meaning a.name = some n ∧ n < 2 ^ 128 := by
  have h10 : ∀ i < 39, 10 ^ i < 2 ^ 128 := by decide +kernel
  rcases (mem_aliases _ _ _ a).1 h with ⟨i, hi, f, hf, rfl⟩ | ⟨i, hi, rfl | ⟨_, f, hf, rfl⟩⟩ | ⟨i, hi, rfl | ⟨_, rfl⟩⟩
  · refine ⟨i, ?_, by omega⟩
    rw [meaning_nameOf]; simp only [List.mem_cons, List.not_mem_nil, or_false] at hf
    rcases hf with rfl | rfl | rfl <;> rfl
  · exact ⟨10 ^ i, meaning_nameOf .ten i, h10 i hi⟩
  · refine ⟨10 ^ i, ?_, h10 i hi⟩
    rw [meaning_nameOf]; simp only [List.mem_cons, List.not_mem_nil, or_false] at hf
    rcases hf with rfl | rfl | rfl <;> rfl
  · exact ⟨2 ^ i, meaning_nameOf .two i, Nat.pow_lt_pow_right (by omega) hi⟩
  · exact ⟨2 ^ i, meaning_nameOf .dec (2 ^ i), Nat.pow_lt_pow_right (by omega) hi⟩

/-- C100: the numbers up to `SEQ_MAX` have a decimal, a hexadecimal and a binary name; the powers in the loops have their exponent names, and a decimal one. -/
theorem C100_all (m d p : Nat) :
    (∀ i ≤ m, ∀ s ∈ ['U' :: fmt 10 i, 'U' :: 'x' :: fmt 16 i, 'U' :: 'b' :: fmt 2 i], s ∈ (aliases m d p).map Alias.name) ∧
    (∀ i < d, ∀ s ∈ [['U', '1', '0', 'p', 'o', 'w'] ++ fmt 10 i, 'U' :: fmt 10 (10 ^ i), 'U' :: 'x' :: fmt 16 (10 ^ i),
      'U' :: 'b' :: fmt 2 (10 ^ i)], s ∈ (aliases m d p).map Alias.name) ∧
    (∀ i < p, ∀ s ∈ [['U', '2', 'p', 'o', 'w'] ++ fmt 10 i, 'U' :: fmt 10 (2 ^ i)], s ∈ (aliases m d p).map Alias.name) := by
  have low : ∀ i ≤ m, ∀ f ∈ [Form.dec, .hex, .bin], nameOf f i ∈ (aliases m d p).map Alias.name := fun i hi f hf =>
    List.mem_map.2 ⟨⟨fmt 10 i, nameOf f i, u i⟩, (mem_aliases _ _ _ _).2 (.inl ⟨i, hi, f, hf, rfl⟩), rfl⟩
  have ten : ∀ i < d, ∀ f ∈ [Form.dec, .hex, .bin], nameOf f (10 ^ i) ∈ (aliases m d p).map Alias.name := by
    intro i hi f hf
    rcases Nat.lt_or_ge m (10 ^ i) with h | h
    · exact List.mem_map.2 ⟨⟨fmt 10 i, nameOf f (10 ^ i), u (10 ^ i)⟩,
        (mem_aliases _ _ _ _).2 (.inr (.inl ⟨i, hi, .inr ⟨h, f, hf, rfl⟩⟩)), rfl⟩
    · exact low _ h f hf
  refine ⟨?_, ?_, ?_⟩
  · intro i hi s hs
    simp only [List.mem_cons, List.not_mem_nil, or_false] at hs
    rcases hs with rfl | rfl | rfl
    · exact low i hi .dec (by simp)
    · exact low i hi .hex (by simp)
    · exact low i hi .bin (by simp)
  · intro i hi s hs
    simp only [List.mem_cons, List.not_mem_nil, or_false] at hs
    rcases hs with rfl | rfl | rfl | rfl
    · exact List.mem_map.2 ⟨⟨fmt 10 i, nameOf .ten i, u (10 ^ i)⟩, (mem_aliases _ _ _ _).2 (.inr (.inl ⟨i, hi, .inl rfl⟩)), rfl⟩
    · exact ten i hi .dec (by simp)
    · exact ten i hi .hex (by simp)
    · exact ten i hi .bin (by simp)
  · intro i hi s hs
    simp only [List.mem_cons, List.not_mem_nil, or_false] at hs
    rcases hs with rfl | rfl
    · exact List.mem_map.2 ⟨⟨fmt 10 i, nameOf .two i, u (2 ^ i)⟩, (mem_aliases _ _ _ _).2 (.inr (.inr ⟨i, hi, .inl rfl⟩)), rfl⟩
    · rcases Nat.lt_or_ge m (2 ^ i) with h | h
      · exact List.mem_map.2 ⟨⟨fmt 10 i, nameOf .dec (2 ^ i), u (2 ^ i)⟩,
          (mem_aliases _ _ _ _).2 (.inr (.inr ⟨i, hi, .inr ⟨h, rfl⟩⟩)), rfl⟩
      · exact low _ h .dec (by simp)

/-! ### No name is defined twice -/

/-- A power of ten other than 1 is no power of two. -/
theorem ten_ne_two {i j : Nat} (h : 10 ^ i = 2 ^ j) : i = 0 := by
  rcases Nat.eq_zero_or_pos i with h0 | h0
  · exact h0
  · have h5 : 5 ∣ 10 ^ i := Nat.dvd_trans (show 5 ∣ 10 by decide) (⟨10 ^ (i - 1), by rw [← Nat.pow_succ']; congr 1; omega⟩)
    rw [h] at h5
    have := (show Nat.Prime 5 by decide).dvd_of_dvd_pow h5
    exact absurd this (by decide)

def seqKeys (i : Nat) : List (Form × Nat) := [(.dec, i), (.hex, i), (.bin, i)]
def tenKeys (m i : Nat) : List (Form × Nat) := (.ten, i) :: if m < 10 ^ i then [(.dec, 10 ^ i), (.hex, 10 ^ i), (.bin, 10 ^ i)] else []
def twoKeys (m i : Nat) : List (Form × Nat) := (.two, i) :: if m < 2 ^ i then [(.dec, 2 ^ i)] else []

theorem names_eq (m d p : Nat) : (aliases m d p).map Alias.name =
    ((List.range (m + 1)).flatMap seqKeys ++ (List.range d).flatMap (tenKeys m) ++ (List.range p).flatMap (twoKeys m)).map
      (fun k => nameOf k.1 k.2) := by
  simp only [aliases, List.map_append, seqAliases, tenAliases, twoAliases, List.map_flatMap]
  congr 1
  · congr 1
    refine congrArg (fun g => List.flatMap g (List.range d)) (funext fun i => ?_)
    simp only [tenKeys, List.map_cons]
    split <;> rfl
  · refine congrArg (fun g => List.flatMap g (List.range p)) (funext fun i => ?_)
    simp only [twoKeys, List.map_cons]
    split <;> rfl

theorem pow_inj10 {i j : Nat} (h : 10 ^ i = 10 ^ j) : i = j := Nat.pow_right_injective (by omega) h
theorem pow_inj2 {i j : Nat} (h : 2 ^ i = 2 ^ j) : i = j := Nat.pow_right_injective (by omega) h

/-- C100: no name is defined twice, whatever the bounds (with `SEQ_MAX` at least 1, as 1 is a power of both). -/
theorem C100_distinct (m d p : Nat) (hm : 1 ≤ m) : ((aliases m d p).map Alias.name).Nodup := by
  rw [names_eq]
  refine List.Nodup.map (fun a b h => Prod.ext (nameOf_inj h).1 (nameOf_inj h).2) ?_
  have n1 : ((List.range (m + 1)).flatMap seqKeys).Nodup := by
    refine List.nodup_flatMap.2 ⟨fun i _ => by simp [seqKeys], ?_⟩
    refine (List.nodup_range).imp ?_
    intro i j hij x hx hy
    simp only [seqKeys, List.mem_cons, List.not_mem_nil, or_false] at hx hy
    rcases hx with rfl | rfl | rfl <;> rcases hy with h | h | h <;> simp_all
  have n2 : ((List.range d).flatMap (tenKeys m)).Nodup := by
    refine List.nodup_flatMap.2 ⟨fun i _ => by unfold tenKeys; split <;> simp, ?_⟩
    refine (List.nodup_range).imp ?_
    intro i j hij x hx hy
    have hp : (10 : Nat) ^ i ≠ 10 ^ j := fun h => hij (pow_inj10 h)
    simp only [tenKeys, List.mem_cons] at hx hy
    rcases hx with rfl | hx
    · rcases hy with h | hy
      · exact hij (Prod.ext_iff.1 h).2
      · split at hy <;> simp at hy
    · split at hx
      · simp only [List.mem_cons, List.not_mem_nil, or_false] at hx
        rcases hy with rfl | hy
        · simp at hx
        · split at hy
          · simp only [List.mem_cons, List.not_mem_nil, or_false] at hy
            rcases hx with rfl | rfl | rfl <;> rcases hy with h | h | h <;> simp_all
          · simp at hy
      · simp at hx
  have n3 : ((List.range p).flatMap (twoKeys m)).Nodup := by
    refine List.nodup_flatMap.2 ⟨fun i _ => by unfold twoKeys; split <;> simp, ?_⟩
    refine (List.nodup_range).imp ?_
    intro i j hij x hx hy
    have hp : (2 : Nat) ^ i ≠ 2 ^ j := fun h => hij (pow_inj2 h)
    simp only [twoKeys, List.mem_cons] at hx hy
    rcases hx with rfl | hx
    · rcases hy with h | hy
      · exact hij (Prod.ext_iff.1 h).2
      · split at hy <;> simp at hy
    · split at hx
      · simp only [List.mem_cons, List.not_mem_nil, or_false] at hx
        subst hx
        rcases hy with h | hy
        · simp at h
        · split at hy
          · simp only [List.mem_cons, List.not_mem_nil, or_false] at hy
            exact hp (Prod.ext_iff.1 hy).2
          · simp at hy
      · simp at hx
  refine (List.nodup_append'.2 ⟨List.nodup_append'.2 ⟨n1, n2, ?_⟩, n3, ?_⟩)
  · intro x hx hy
    simp only [List.mem_flatMap, List.mem_range] at hx hy
    obtain ⟨i, hi, hx⟩ := hx
    obtain ⟨j, hj, hy⟩ := hy
    simp only [seqKeys, List.mem_cons, List.not_mem_nil, or_false] at hx
    simp only [tenKeys, List.mem_cons] at hy
    rcases hy with rfl | hy
    · simp at hx
    · split at hy
      · rename_i hlt
        simp only [List.mem_cons, List.not_mem_nil, or_false] at hy
        rcases hx with rfl | rfl | rfl <;> rcases hy with h | h | h <;> simp at h <;> omega
      · simp at hy
  · intro x hx hy
    simp only [List.mem_append, List.mem_flatMap, List.mem_range] at hx hy
    obtain ⟨j, hj, hy⟩ := hy
    simp only [twoKeys, List.mem_cons] at hy
    rcases hx with ⟨i, hi, hx⟩ | ⟨i, hi, hx⟩
    · simp only [seqKeys, List.mem_cons, List.not_mem_nil, or_false] at hx
      rcases hy with rfl | hy
      · simp at hx
      · split at hy
        · simp only [List.mem_cons, List.not_mem_nil, or_false] at hy
          rcases hx with rfl | rfl | rfl <;> simp at hy <;> omega
        · simp at hy
    · simp only [tenKeys, List.mem_cons] at hx
      rcases hy with rfl | hy
      · rcases hx with h | hx
        · simp at h
        · split at hx <;> simp at hx
      · split at hy
        · rename_i hlt
          simp only [List.mem_cons, List.not_mem_nil, or_false] at hy
          subst hy
          rcases hx with h | hx
          · simp at h
          · split at hx
            · simp only [List.mem_cons, List.not_mem_nil, or_false] at hx
              rcases hx with h | h | h
              · have h' := (Prod.ext_iff.1 h).2
                have h0 := ten_ne_two h'.symm
                subst h0
                simp only [Nat.pow_zero] at h'
                omega
              · simp at h
              · simp at h
            · simp at hx
        · simp at hy

/-- The condition on `SEQ_MAX` is needed. -/
example : ¬ ((aliases 0 1 1).map Alias.name).Nodup := by decide +kernel

/-- C100 fails for the documentation: the comment of the generated powers is the exponent, not the number. -/
theorem C100_doc_refuted : ∃ a ∈ unsignedRs, ∃ n, meaning a.name = some n ∧ numeral 10 a.doc ≠ some n := by
  refine ⟨⟨fmt 10 3, nameOf .ten 3, u (10 ^ 3)⟩, (mem_aliases _ _ _ _).2 (.inr (.inl ⟨3, by omega, .inl rfl⟩)), 1000, ?_, ?_⟩
  · exact meaning_nameOf .ten 3
  · rw [numeral_fmt 10 3 (by omega) (by omega)]; decide

/-- C100, the part of the documentation that holds: the comments of the numbers up to `SEQ_MAX`. -/
theorem C100_doc_partial (m : Nat) (a : Alias) (h : a ∈ seqAliases m) : numeral 10 a.doc = meaning a.name := by
  have h' : a ∈ aliases m 0 0 := by simp [aliases, h]
  rcases (mem_aliases _ _ _ a).1 h' with ⟨i, hi, f, hf, rfl⟩ | ⟨i, hi, _⟩ | ⟨i, hi, _⟩
  · rw [meaning_nameOf, numeral_fmt 10 i (by omega) (by omega)]
    simp only [List.mem_cons, List.not_mem_nil, or_false] at hf
    rcases hf with rfl | rfl | rfl <;> rfl
  · omega
  · omega

/-- Instances: `Ux3E8` is 1000, and the power of two 1024 has no hexadecimal name. -/
example : meaning ['U', 'x', '3', 'E', '8'] = some 1000 ∧ 'U' :: 'x' :: fmt 16 1000 = ['U', 'x', '3', 'E', '8'] := by decide +kernel
example : denotes (u 5) = some (.int (.int (.int .term true) false) true) := by decide +kernel
example : ['U', 'x', '4', '0', '0'] ∉ unsignedRs.map Alias.name := by
  have e : ['U', 'x', '4', '0', '0'] = nameOf .hex 1024 := by decide +kernel
  rw [e]
  intro h
  obtain ⟨a, ha, hn⟩ := List.mem_map.1 h
  have h10 : ∀ i < 39, 10 ^ i ≠ 1024 := by decide +kernel
  rcases (mem_aliases _ _ _ a).1 ha with ⟨i, hi, f, hf, rfl⟩ | ⟨i, hi, rfl | ⟨_, f, hf, rfl⟩⟩ | ⟨i, hi, rfl | ⟨_, rfl⟩⟩
  · have := (nameOf_inj hn).2; omega
  · exact absurd (nameOf_inj (f := .ten) (g := .hex) hn).1 (by decide)
  · exact h10 i hi (nameOf_inj hn).2
  · exact absurd (nameOf_inj (f := .two) (g := .hex) hn).1 (by decide)
  · exact absurd (nameOf_inj (f := .dec) (g := .hex) hn).1 (by decide)

/-! ## Tuples -/

/-- Running `let (pat) = values; expr`: the names are bound in order, the expression reads them.  `none`: the numbers of names and values differ, a name is bound twice, or
a name is not bound. -/
def run {α : Type _} (pat expr : List Text) (values : List α) : Option (List α) :=
  if pat.length = values.length ∧ pat.Nodup then expr.mapM fun x => (pat.zip values).lookup x else none

theorem idents_nodup (pre : Text) (i : Nat) : (idents pre i).Nodup := by
  refine List.Nodup.map_on ?_ List.nodup_range
  intro a _ b _ h
  exact fmt_inj 10 (by omega) (by omega) (List.append_cancel_left h)

theorem run_self {α : Type _} : ∀ (ns : List Text) (vs : List α), ns.length = vs.length → ns.Nodup → run ns ns vs = some vs := by
  intro ns vs hl hn
  rw [run, if_pos ⟨hl, hn⟩]
  have main : ∀ (ms : List Text) (ws : List α), ms.length = ws.length →
      (∀ k (h : k < ms.length) (h' : k < ws.length), (ns.zip vs).lookup ms[k] = some ws[k]) →
      ms.mapM (fun x => (ns.zip vs).lookup x) = some ws := by
    intro ms
    induction ms with
    | nil => intro ws h _; cases ws with
      | nil => rfl
      | cons _ _ => simp at h
    | cons x ms ih =>
      intro ws h hk
      cases ws with
      | nil => simp at h
      | cons w ws =>
        have h0 := hk 0 (by simp) (by simp)
        simp only [List.getElem_cons_zero] at h0
        rw [List.mapM_cons, h0, ih ws (by simpa using h)]
        · rfl
        · intro k h1 h2
          have := hk (k + 1) (by simpa using h1) (by simpa using h2)
          simpa using this
  refine main ns vs hl ?_
  clear main
  induction ns generalizing vs with
  | nil => intro k h; simp at h
  | cons n ns ih =>
    cases vs with
    | nil => simp at hl
    | cons v vs =>
      intro k h h'
      rw [List.zip_cons_cons]
      cases k with
      | zero => simp [List.lookup]
      | succ k =>
        have hk : k < ns.length := by simpa using h
        have hne : ns[k] ≠ n := fun e => (List.nodup_cons.1 hn).1 (e ▸ List.getElem_mem hk)
        simp only [List.getElem_cons_succ]
        rw [List.lookup_cons, show (ns[k] == n) = false from by simpa using hne]
        exact ih vs (by simpa using hl) (List.nodup_cons.1 hn).2 k hk (by simpa using h')

/-- C100: the tuple of arity `i` has `i` fields, the `k`-th of the type of the `k`-th component; its names are distinct; both conversions keep every component in its
place. -/
theorem C100_tuples {α : Type _} (i : Nat) (values : List α) (h : values.length = i) :
    (tupleDef i).generics.length = i ∧ (tupleDef i).fields = (tupleDef i).generics ∧ (tupleDef i).generics.Nodup ∧
    run (tupleDef i).fromPat (tupleDef i).fromExpr values = some values ∧
    run (tupleDef i).intoPat (tupleDef i).intoExpr values = some values := by
  have hl : ∀ pre, (idents pre i).length = i := by intro pre; simp [idents]
  refine ⟨hl _, rfl, idents_nodup _ _, ?_, ?_⟩
  · exact run_self _ _ ((hl _).trans h.symm) (idents_nodup _ _)
  · exact run_self _ _ ((hl _).trans h.symm) (idents_nodup _ _)

example : (tupleDef 2).fromPat = [['f', 'i', 'e', 'l', 'd', '0'], ['f', 'i', 'e', 'l', 'd', '1']] ∧
    run (tupleDef 2).fromPat (tupleDef 2).fromExpr [7, 8] = some [7, 8] := by decide +kernel

/-- Reading the option: a numeral, perhaps after a plus sign. -/
def wanted (s : Text) : Option Nat := match s with
  | '+' :: r => numeral 10 r
  | r => numeral 10 r

theorem dval_lt10 (c : Char) : (∃ d, dval c = some d ∧ d < 10) ↔ (48 ≤ c.toNat ∧ c.toNat < 58) := by
  constructor
  · rintro ⟨d, hd, h⟩
    unfold dval at hd
    dsimp only at hd
    split at hd
    · rename_i hlt
      cases hd
      have : ∀ (l : List Char) (c : Char) (hc : l.idxOf c < l.length), l[l.idxOf c] = c := fun l c hc => List.getElem_idxOf hc
      have e := this ['0', '1', '2', '3', '4', '5', '6', '7', '8', '9', 'A', 'B', 'C', 'D', 'E', 'F'] c hlt
      have all : ∀ k (hk : k < 16), k < 10 →
        48 ≤ (['0', '1', '2', '3', '4', '5', '6', '7', '8', '9', 'A', 'B', 'C', 'D', 'E', 'F'][k]'hk).toNat ∧
        (['0', '1', '2', '3', '4', '5', '6', '7', '8', '9', 'A', 'B', 'C', 'D', 'E', 'F'][k]'hk).toNat < 58 := by decide
      have := all _ hlt h
      rwa [e] at this
    · simp at hd
  · rintro ⟨h1, h2⟩
    have all : ∀ n, 48 ≤ n → n < 58 → ∃ d, dval (Char.ofNat n) = some d ∧ d < 10 := by
      intro n h1 h2
      obtain ⟨k, rfl⟩ := Nat.exists_eq_add_of_le h1
      have : ∀ k < 10, dval (Char.ofNat (48 + k)) = some k := by decide
      exact ⟨k, this k (by omega), by omega⟩
    have := all c.toNat h1 h2
    rwa [Char.ofNat_toNat] at this

theorem dval_val (c : Char) (h : 48 ≤ c.toNat ∧ c.toNat < 58) : dval c = some (c.toNat - 48) := by
  have all : ∀ n, 48 ≤ n → n < 58 → dval (Char.ofNat n) = some (n - 48) := by
    intro n h1 h2
    obtain ⟨k, rfl⟩ := Nat.exists_eq_add_of_le h1
    have : ∀ k < 10, dval (Char.ofNat (48 + k)) = some (48 + k - 48) := by decide
    exact this k (by omega)
  have := all c.toNat h.1 h.2
  rwa [Char.ofNat_toNat] at this

theorem readFrom_mono (b : Nat) (hb : 1 ≤ b) : ∀ s v n, readFrom b v s = some n → v ≤ n := by
  intro s
  induction s with
  | nil => intro v n h; simp only [readFrom, Option.some.injEq] at h; omega
  | cons c s ih =>
    intro v n h
    rw [readFrom] at h
    split at h
    · split at h
      · have := ih _ _ h
        have := Nat.mul_le_mul_left v hb
        omega
      · simp at h
    · simp at h

theorem digitsUsize_eq : ∀ s v, v < 2 ^ 64 → digitsUsize v s = (readFrom 10 v s).filter (· < 2 ^ 64) := by
  intro s
  induction s with
  | nil => intro v h; rw [digitsUsize, readFrom, Option.filter_some]; rw [if_pos (by simpa using h)]
  | cons c s ih =>
    intro v hv
    rw [digitsUsize, readFrom]
    by_cases hc : 48 ≤ c.toNat ∧ c.toNat < 58
    · rw [if_pos hc, dval_val c hc]
      have hlt : c.toNat - 48 < 10 := by omega
      simp only [hlt, if_true]
      rw [Nat.mul_comm v 10]
      by_cases hv' : 10 * v + (c.toNat - 48) < 2 ^ 64
      · rw [if_pos hv', ih _ hv']
      · rw [if_neg hv']
        cases hr : readFrom 10 (10 * v + (c.toNat - 48)) s with
        | none => rfl
        | some n =>
          have := readFrom_mono 10 (by omega) _ _ _ hr
          rw [Option.filter_some, if_neg (by simp; omega)]
    · rw [if_neg hc]
      cases hd : dval c with
      | none => rfl
      | some d =>
        have : ¬ d < 10 := fun h => hc ((dval_lt10 c).1 ⟨d, hd, h⟩)
        simp [this]

theorem parseUsize_eq (s : Text) : parseUsize s = (wanted s).filter (· < 2 ^ 64) := by
  unfold parseUsize
  split
  · rfl
  · rfl
  · rename_i c cs
    exact digitsUsize_eq _ _ (by decide)
  · rename_i c cs h1 h2
    have : wanted (c :: cs) = numeral 10 (c :: cs) := by
      unfold wanted
      split
      · rename_i r e
        simp only [List.cons.injEq] at e
        obtain ⟨rfl, rfl⟩ := e
        cases cs with
        | nil => exact absurd rfl (h1 rfl)
        | cons x xs => exact absurd rfl (h2 x xs rfl)
      · rfl
    rw [this]
    exact digitsUsize_eq _ _ (by decide)

/-- C100: tuples up to arity 10 always exist; those up to the arity asked for exist if it can be read as a `usize`, and without a request, or one that cannot be read, those up to 32. -/
theorem C100_arity (var : Option Text) (n : Nat) :
    (∃ t ∈ tuples (maxTuple var), t.name = ['T', 'u', 'p', 'l', 'e'] ++ fmt 10 n) ↔
      n ≤ 10 ∨ n ≤ ((var.bind wanted).filter (· < 2 ^ 64)).getD 32 := by
  have hm : maxTuple var = Nat.max (((var.bind wanted).filter (· < 2 ^ 64)).getD 32) 10 := by
    cases var with
    | none => rfl
    | some s => simp only [maxTuple, Option.bind_some, parseUsize_eq]
  rw [hm]
  generalize ((var.bind wanted).filter (· < 2 ^ 64)).getD 32 = k
  have hmem : (∃ t ∈ tuples (Nat.max k 10), t.name = ['T', 'u', 'p', 'l', 'e'] ++ fmt 10 n) ↔ n ≤ Nat.max k 10 := by
    simp only [tuples, List.mem_map, List.mem_range]
    constructor
    · rintro ⟨t, ⟨i, hi, rfl⟩, h⟩
      have : i = n := fmt_inj 10 (by omega) (by omega) (List.append_cancel_left h)
      omega
    · intro h
      exact ⟨tupleDef n, ⟨n, by omega, rfl⟩, rfl⟩
  rw [hmem]
  have : Nat.max k 10 = max k 10 := rfl
  omega

example : maxTuple (some ['+', '1', '2']) = 12 ∧ maxTuple (some ['-', '1']) = 32 ∧ maxTuple (some ['3']) = 10 := by decide +kernel

end Verif.Props.Names
