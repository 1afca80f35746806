import Verif.Report.Text
import Verif.Props.Report
import Mathlib.Tactic.Common
import Mathlib.Data.List.Basic
import Mathlib.Data.Nat.Digits.Lemmas
/-! C103: the text of a report tells it from all others. -/
namespace Verif.Props.ReportText
open Verif.Report
set_option linter.unusedSimpArgs false
set_option linter.unusedVariables false

/-- The fields of a report in order, as a list. -/
def fieldList : Fields → List (Str × Report)
  | .none => []
  | .some n ty next => (n, ty) :: fieldList next

/-! ### Iteration -/

/-- Both iterators give the fields in order, once each, and nothing from then on (they are fused). -/
theorem C103_fields (f : Fields) (k : Nat) :
    takeFields nextField k f = ((fieldList f).map some ++ List.replicate k none).take k
      ∧ takeFields nextConst k f = takeFields nextField k f := by
  induction k generalizing f with
  | zero => exact ⟨by simp [takeFields], rfl⟩
  | succ k ih =>
    cases f with
    | none =>
      have := ih .none
      simp only [fieldList, List.map_nil, List.nil_append, List.take_replicate, min_self] at this
      constructor
      · simp [takeFields, nextField, fieldList, this.1, List.replicate_succ]
      · simp [takeFields, nextField, nextConst, this.2]
    | some n ty next =>
      have h := ih next
      constructor
      · simp only [takeFields, nextField, fieldList, List.map_cons, List.cons_append, List.take_succ_cons, h.1]
        congr 1
        rw [List.take_append, List.take_append]
        congr 1
        rw [List.take_replicate, List.take_replicate]
        congr 1
        omega
      · simp [takeFields, nextField, nextConst, h.2]

/-! ### Text -/

/-- Names as the macros and the implementations of stabby make them: identifiers, paths, `[T;3]`, `u128(16)` and so on, without
blanks; names of fields moreover without braces; kinds of enums without characters that are escaped. -/
def Word (s : Str) : Prop := ∀ b ∈ s, b ≠ 32
def FieldName (s : Str) : Prop := ∀ b ∈ s, b ≠ 32 ∧ b ≠ 58 ∧ b ≠ 125
def Quotable (s : Str) : Prop := ∀ b ∈ s, 32 ≤ b ∧ b < 127 ∧ b ≠ 34 ∧ b ≠ 92
def PlainTyTy : TyTy → Prop
  | .enum s => Quotable s
  | _ => True
mutual
def Plain : Report → Prop
  | .mk n m f t _ => Word n ∧ Word m ∧ PlainTyTy t ∧ PlainFields f
def PlainFields : Fields → Prop
  | .none => True
  | .some n ty next => FieldName n ∧ Plain ty ∧ PlainFields next
end

theorem split_at {c : Nat} : ∀ {a b s t : List Nat}, (∀ x ∈ a, x ≠ c) → (∀ x ∈ b, x ≠ c) →
    a ++ c :: s = b ++ c :: t → a = b ∧ s = t
  | [], [], s, t, _, _, h => by simpa using h
  | [], y :: b, s, t, _, hb, h => by
    simp only [List.nil_append, List.cons_append, List.cons.injEq] at h
    exact absurd h.1.symm (hb y (by simp))
  | x :: a, [], s, t, ha, _, h => by
    simp only [List.nil_append, List.cons_append, List.cons.injEq] at h
    exact absurd h.1 (ha x (by simp))
  | x :: a, y :: b, s, t, ha, hb, h => by
    simp only [List.cons_append, List.cons.injEq] at h
    obtain ⟨h1, h2⟩ := split_at (fun z hz => ha z (by simp [hz])) (fun z hz => hb z (by simp [hz])) h.2
    exact ⟨by rw [h.1, h1], h2⟩

theorem versionText_ne {v : Nat} : ∀ x ∈ versionText v, x ≠ 41 := by
  intro x hx
  unfold versionText at hx
  split at hx
  · simp at hx; omega
  · simp only [List.mem_reverse, List.mem_map] at hx
    obtain ⟨d, _, rfl⟩ := hx
    omega

theorem versionText_inj {v w : Nat} (h : versionText v = versionText w) : v = w := by
  have key : ∀ {v : Nat}, v ≠ 0 → ((Nat.digits 10 v).map (· + 48)).reverse ≠ [48] := by
    intro v hv hh
    have h1 : (Nat.digits 10 v).map (· + 48) = [48] := by
      have := congrArg List.reverse hh
      simpa using this
    have h2 : Nat.digits 10 v = [0] := by
      cases hd : Nat.digits 10 v with
      | nil => simp [hd] at h1
      | cons a l =>
        simp only [hd, List.map_cons, List.cons.injEq, List.map_eq_nil_iff] at h1
        rw [h1.2]; congr 1; omega
    have := Nat.ofDigits_digits 10 v
    rw [h2] at this
    simp [Nat.ofDigits] at this
    omega
  unfold versionText at h
  split at h <;> split at h
  · omega
  · exact absurd h.symm (key ‹_›)
  · exact absurd h (key ‹_›)
  · have h1 := List.reverse_inj.1 h
    have h2 : Nat.digits 10 v = Nat.digits 10 w :=
      List.map_injective_iff.2 (fun a b hab => by simpa using hab) h1
    exact Nat.digits.injective 10 h2

theorem escape_quotable {s : Str} (h : Quotable s) : s.flatMap escape = s := by
  induction s with
  | nil => rfl
  | cons b s ih =>
    have hb := h b (by simp)
    simp only [List.flatMap_cons, ih (fun x hx => h x (by simp [hx]))]
    unfold escape
    repeat rw [if_neg (by omega)]
    rfl

theorem tyty_split {t t' : TyTy} {a b : List Nat} (ht : PlainTyTy t) (ht' : PlainTyTy t')
    (h : tytyText t ++ 32 :: a = tytyText t' ++ 32 :: b) : t = t' ∧ a = b := by
  cases t <;> cases t' <;>
    simp only [tytyText, tStruct, tUnion, tEnum, tEnumEnd, List.cons_append, List.nil_append, List.cons.injEq,
      Nat.reduceEqDiff, false_and, true_and, and_false, List.append_assoc, PlainTyTy] at h ht ht' <;>
    first
    | exact ⟨rfl, h⟩
    | skip
  rename_i s s'
  rw [escape_quotable ht, escape_quotable ht'] at h
  obtain ⟨h1, h2⟩ := split_at (fun x hx => (ht x hx).2.2.1) (fun x hx => (ht' x hx).2.2.1) h
  refine ⟨by rw [h1], ?_⟩
  simpa using h2

mutual
theorem text_split : ∀ (r r' : Report) (s s' : List Nat), Plain r → Plain r' → text r ++ s = text r' ++ s' → r = r' ∧ s = s'
  | .mk n m f t v, .mk n' m' f' t' v', s, s', hp, hp', h => by
    simp only [Plain] at hp hp'
    simp only [text, tColons, tVersion, tOpen, tClose, List.append_assoc, List.cons_append, List.nil_append] at h
    obtain ⟨ht, h1⟩ := tyty_split hp.2.2.1 hp'.2.2.1 h
    obtain ⟨hm, h2⟩ := split_at hp.2.1 hp'.2.1 h1
    simp only [List.cons.injEq, true_and] at h2
    obtain ⟨hn, h3⟩ := split_at hp.1 hp'.1 h2
    simp only [List.cons.injEq, true_and] at h3
    obtain ⟨hv, h4⟩ := split_at versionText_ne versionText_ne h3
    simp only [List.cons.injEq, true_and] at h4
    obtain ⟨hf, h5⟩ := fields_split f f' s s' hp.2.2.2 hp'.2.2.2 h4
    exact ⟨by rw [ht, hm, hn, versionText_inj hv, hf], h5⟩
theorem fields_split : ∀ (f f' : Fields) (s s' : List Nat), PlainFields f → PlainFields f' →
    fieldsText f ++ 125 :: s = fieldsText f' ++ 125 :: s' → f = f' ∧ s = s'
  | .none, .none, s, s', _, _, h => by simpa [fieldsText] using h
  | .none, .some n ty next, s, s', _, hp, h => by
    simp only [PlainFields] at hp
    cases n with
    | nil => simp [fieldsText, tField] at h
    | cons b n =>
      simp only [fieldsText, List.nil_append, List.cons_append, List.append_assoc, List.cons.injEq] at h
      exact absurd h.1.symm (hp.1 b (by simp)).2.2
  | .some n ty next, .none, s, s', hp, _, h => by
    simp only [PlainFields] at hp
    cases n with
    | nil => simp [fieldsText, tField] at h
    | cons b n =>
      simp only [fieldsText, List.nil_append, List.cons_append, List.append_assoc, List.cons.injEq] at h
      exact absurd h.1 (hp.1 b (by simp)).2.2
  | .some n ty next, .some n' ty' next', s, s', hp, hp', h => by
    simp only [PlainFields] at hp hp'
    simp only [fieldsText, tField, tComma, List.append_assoc, List.cons_append, List.nil_append] at h
    obtain ⟨hn, h1⟩ := split_at (fun x hx => (hp.1 x hx).2.1) (fun x hx => (hp'.1 x hx).2.1) h
    simp only [List.cons.injEq, true_and] at h1
    obtain ⟨ht, h2⟩ := text_split ty ty' _ _ hp.2.1 hp'.2.1 h1
    simp only [List.cons.injEq, true_and] at h2
    obtain ⟨hf, h3⟩ := fields_split next next' s s' hp.2.2 hp'.2.2 h2
    exact ⟨by rw [hn, ht, hf], h3⟩
end

/-- Reports have the same text only if they are the same, for reports with plain names. -/
theorem C103_text_partial (r r' : Report) (hr : Plain r) (hr' : Plain r') : text r = text r' ↔ r = r' := by
  constructor
  · intro h
    exact (text_split r r' [] [] hr hr' (by simpa using h)).1
  · rintro rfl; rfl

/-- `Struct m :: A (version0) {x: Struct k :: u8 (version12) {}, }` -/
example : text (.mk [65] [109] (.some [120] (.mk [117, 56] [107] .none .struct 12) .none) .struct 0)
    = [83, 116, 114, 117, 99, 116, 32, 109, 32, 58, 58, 32, 65, 32, 40, 118, 101, 114, 115, 105, 111, 110, 48, 41, 32, 123,
      120, 58, 32,
      83, 116, 114, 117, 99, 116, 32, 107, 32, 58, 58, 32, 117, 56, 32, 40, 118, 101, 114, 115, 105, 111, 110, 49, 50, 41, 32, 123,
      125, 44, 32, 125] := by
  simp [text, fieldsText, tytyText, versionText, tStruct, tColons, tVersion, tOpen, tClose, tField, tComma]

/-- `Enum("u8") m :: E (version0) {}` -/
example : text (.mk [69] [109] .none (.enum [117, 56]) 0)
    = [69, 110, 117, 109, 40, 34, 117, 56, 34, 41, 32, 109, 32, 58, 58, 32, 69, 32, 40, 118, 101, 114, 115, 105, 111, 110, 48, 41,
      32, 123, 125] := by
  simp [text, fieldsText, tytyText, versionText, tStruct, tEnum, tEnumEnd, escape, tColons, tVersion, tOpen, tClose]

/-! ### Types have plain reports -/

theorem plain_name : ∀ {r : Report}, Plain r → Word r.name
  | .mk _ _ _ _ _, h => h.1

mutual
/-- All names in the type are written without blanks: those of fields and variants are identifiers or numbers, modules are paths. -/
def NamedTy : Ty → Prop
  | .prim n => Word n
  | .wrap n t => Word n ∧ NamedTy t
  | .sig l r => NamedTy l ∧ NamedTy r
  | .option t => NamedTy t
  | .resultOk ok _ => NamedTy ok
  | .resultErr _ err => NamedTy err
  | .resultInfallible t => NamedTy t
  | .maybeUninit t => NamedTy t
  | .manuallyDrop t => NamedTy t
  | .unsafeCell t => NamedTy t
  | .nonX n _ => Word n
  | .item m n k _ fs => Word m ∧ Word n ∧ PlainTyTy k ∧ NamedFields fs
def NamedFields : List (Str × Ty) → Prop
  | [] => True
  | (n, t) :: fs => FieldName n ∧ NamedTy t ∧ NamedFields fs
end

mutual
/-- The report of every type whose names are written without blanks is plain. -/
theorem C103_types : ∀ t : Ty, NamedTy t → Plain (reportOf t)
  | .prim n, h => by
    simp only [NamedTy] at h
    exact ⟨h, by unfold Word; decide, trivial, trivial⟩
  | .wrap n t, h => by
    simp only [NamedTy] at h
    exact ⟨h.1, by unfold Word; decide, trivial, by unfold FieldName; decide, C103_types t h.2, trivial⟩
  | .sig l r, h => by
    simp only [NamedTy] at h
    exact ⟨by unfold Word; decide, by unfold Word; decide, trivial, by unfold FieldName; decide, C103_types l h.1,
      by unfold FieldName; decide, C103_types r h.2, trivial⟩
  | .option t, h => by
    simp only [NamedTy] at h
    exact ⟨by unfold Word; decide, by unfold Word; decide, by unfold PlainTyTy Quotable; decide, by unfold FieldName; decide,
      C103_types t h, trivial⟩
  | .resultOk t _, h => by
    simp only [NamedTy] at h
    exact ⟨by unfold Word; decide, by unfold Word; decide, by unfold PlainTyTy Quotable; decide, by unfold FieldName; decide,
      C103_types t h, trivial⟩
  | .resultErr _ t, h => by
    simp only [NamedTy] at h
    exact ⟨by unfold Word; decide, by unfold Word; decide, by unfold PlainTyTy Quotable; decide, by unfold FieldName; decide,
      C103_types t h, trivial⟩
  | .resultInfallible t, h => by
    simp only [NamedTy] at h
    simpa [reportOf] using C103_types t h
  | .maybeUninit t, h => by
    simp only [NamedTy] at h
    exact ⟨plain_name (C103_types t h), by unfold Word; decide, trivial, trivial⟩
  | .manuallyDrop t, h => by
    simp only [NamedTy] at h
    exact ⟨plain_name (C103_types t h), by unfold Word; decide, trivial, trivial⟩
  | .unsafeCell t, h => by
    simp only [NamedTy] at h
    exact ⟨plain_name (C103_types t h), by unfold Word; decide, trivial, trivial⟩
  | .nonX n _, h => by
    simp only [NamedTy] at h
    exact ⟨h, by unfold Word; decide, trivial, trivial⟩
  | .item m n k v fs, h => by
    simp only [NamedTy] at h
    exact ⟨h.2.1, h.1, h.2.2.1, C103_fieldsOf fs .none trivial h.2.2.2⟩
theorem C103_fieldsOf : ∀ (fs : List (Str × Ty)) (acc : Fields), PlainFields acc → NamedFields fs → PlainFields (fieldsOf acc fs)
  | [], acc, ha, _ => by simpa [fieldsOf] using ha
  | (n, t) :: fs, acc, ha, h => by
    simp only [NamedFields] at h
    simp only [fieldsOf]
    exact C103_fieldsOf fs _ ⟨h.1, C103_types t h.2.1, ha⟩ h.2.2
end

/-- A struct `m::A { x: &u8, y: Option<u8> }` is named this way. -/
example : NamedTy (.item [109] [65] .struct 0 [([120], .wrap [38] (.prim [117, 56])), ([121], .option (.prim [117, 56]))]) := by
  simp [NamedTy, NamedFields, Word, FieldName, PlainTyTy]

/-! ### The message when a symbol is not what the loader asks for -/

/-- `get_stabbied` hands out the symbol exactly if the reports are compatible; otherwise the message contains the texts of both
reports, which differ, and the reports can be told from the message. -/
theorem C103_message_partial (loader lib : Report) (hl : Plain loader) (hb : Plain lib) :
    (getStabbied loader lib = none ↔ isCompatible lib loader = true) ∧
    (∀ msg, getStabbied loader lib = some msg → msg = tLoader ++ text loader ++ tLib ++ text lib ∧ text loader ≠ text lib ∧
      ∀ a b, Plain a → Plain b → mismatch a b = msg → a = loader ∧ b = lib) := by
  unfold getStabbied
  refine ⟨by split <;> simp_all, ?_⟩
  intro msg h
  split at h
  · simp at h
  · rename_i hc
    simp only [Option.some.injEq] at h
    subst h
    refine ⟨rfl, ?_, ?_⟩
    · intro he
      have := (C103_text_partial loader lib hl hb).1 he
      subst this
      exact hc (Verif.Props.Report.compat_refl _)
    · intro a b ha hb' h
      simp only [mismatch, List.append_assoc, List.append_cancel_left_eq] at h
      obtain ⟨h1, h2⟩ := text_split a loader _ _ ha hl h
      rw [List.append_cancel_left_eq] at h2
      exact ⟨h1, (C103_text_partial b lib hb' hb).1 h2⟩

/-- Not compatible, and plain: the message is given. -/
example : ∃ a b : Report, Plain a ∧ Plain b ∧ ∃ msg, getStabbied a b = some msg :=
  ⟨.mk [65] [109] .none .struct 0, .mk [65] [109] .none .struct 1, by simp [Plain, PlainFields, Word, PlainTyTy],
    by simp [Plain, PlainFields, Word, PlainTyTy], _, rfl⟩

/-- The module `m :: A (version0) {}, y: Struct q`, which `#[stabby(module = "...")]` accepts. -/
def oddModule : Str := [109, 32, 58, 58, 32, 65, 32, 40, 118, 101, 114, 115, 105, 111, 110, 48, 41, 32, 123, 125, 44, 32,
  121, 58, 32, 83, 116, 114, 117, 99, 116, 32, 113]

/-- Modules are arbitrary strings.  With blanks in one, two reports that aren't compatible have the same text: the message says that
they mismatch, and shows the same twice.  The first has a field `f` of type `B` in the odd module, the second `f: m::A` and `y: q::B`. -/
theorem C103_text_refuted : ∃ a b : Report, isCompatible b a = false ∧ text a = text b ∧
    getStabbied a b = some (tLoader ++ text a ++ tLib ++ text a) := by
  refine ⟨.mk [80] [109] (.some [102] (.mk [66] oddModule .none .struct 0) .none) .struct 0,
    .mk [80] [109] (.some [102] (.mk [65] [109] .none .struct 0) (.some [121] (.mk [66] [113] .none .struct 0) .none)) .struct 0,
    by decide, ?_, ?_⟩
  · simp [text, fieldsText, tytyText, versionText, tStruct, tColons, tVersion, tOpen, tClose, tField, tComma, oddModule]
  · simp [getStabbied, isCompatible, zipAll, mismatch, text, fieldsText, tytyText, versionText, tStruct, tColons, tVersion, tOpen,
      tClose, tField, tComma, oddModule]

/-! ### Order and size -/

/-- What the fields of a struct are, in the order in which they are written. -/
def declared (fs : List (Str × Ty)) : List (Str × Report) := fs.map fun p => (p.1, reportOf p.2)

theorem fieldList_fieldsOf : ∀ (fs : List (Str × Ty)) (acc : Fields),
    fieldList (fieldsOf acc fs) = (declared fs).reverse ++ fieldList acc
  | [], acc => by simp [fieldsOf, declared]
  | (n, t) :: fs, acc => by
    simp only [fieldsOf, fieldList_fieldsOf fs, declared, fieldList, List.map_cons, List.reverse_cons, List.append_assoc,
      List.cons_append, List.nil_append]

/-- The fields of a type are iterated, and shown, from the last to the first. -/
theorem C103_order (m n : Str) (k : TyTy) (v : Nat) (fs : List (Str × Ty)) :
    fieldList (reportOf (.item m n k v fs)).fields = (declared fs).reverse := by
  simp [reportOf, Report.fields, fieldList_fieldsOf, fieldList]

/-- They are not in the order of the declaration. -/
theorem C103_order_refuted : ∃ fs : List (Str × Ty), fieldList (reportOf (.item [109] [65] .struct 0 fs)).fields ≠ declared fs :=
  ⟨[([120], .prim [97]), ([121], .prim [98])], by
    rw [C103_order]
    simp [declared, reportOf]⟩

/-- `struct Tn+1 { x: Tn, y: Tn }`. -/
def tower : Nat → Ty
  | 0 => .prim [117, 56]
  | n + 1 => .item [109] [65] .struct 0 [([120], tower n), ([121], tower n)]

/-- Texts write each field in full: `n` structs can take more than `2 ^ n` bytes. -/
theorem C103_size (n : Nat) : 2 ^ n ≤ (text (reportOf (tower n))).length := by
  induction n with
  | zero => simp [tower, reportOf, text, fieldsText, tytyText, tStruct]
  | succ n ih =>
    simp only [tower, reportOf, fieldsOf, text, fieldsText, List.length_append]
    omega

/-! ### The format -/

theorem fieldsText_list : ∀ f : Fields, fieldsText f = (fieldList f).flatMap (fun x => x.1 ++ tField ++ text x.2 ++ tComma)
  | .none => rfl
  | .some n ty next => by simp [fieldsText, fieldList, fieldsText_list next]

/-- The bytes of an ASCII string. -/
def ascii (s : String) : Str := s.toList.map Char.toNat

/-- `ds` writes `v` in decimal, with no leading zeros. -/
def Decimal (v : Nat) (ds : Str) : Prop :=
  ds.foldl (fun a d => 10 * a + (d - 48)) 0 = v ∧ (∀ d ∈ ds, 48 ≤ d ∧ d ≤ 57) ∧ ds ≠ [] ∧ (ds.head? = some 48 → ds = [48])

theorem decimal_version (v : Nat) : Decimal v (versionText v) := by
  unfold versionText
  split
  · subst_vars
    exact ⟨rfl, by simp, by simp, fun _ => rfl⟩
  · rename_i hv
    have hd : ∀ d ∈ Nat.digits 10 v, d < 10 := fun d h => Nat.digits_lt_base (by omega) h
    refine ⟨?_, ?_, ?_, ?_⟩
    · rw [List.foldl_reverse, List.foldr_map]
      conv_rhs => rw [← Nat.ofDigits_digits 10 v]
      rw [Nat.ofDigits_eq_foldr]
      clear hd
      induction Nat.digits 10 v with
      | nil => rfl
      | cons d ds ih => simp only [List.foldr_cons, ih]; simp; omega
    · intro d h
      simp only [List.mem_reverse, List.mem_map] at h
      obtain ⟨e, he, rfl⟩ := h
      have := hd e he
      omega
    · simpa [Nat.digits_ne_nil_iff_ne_zero] using hv
    · intro h
      rw [List.head?_reverse, List.getLast?_map] at h
      have hl := Nat.getLast_digit_ne_zero 10 hv
      rw [List.getLast?_eq_getLast_of_ne_nil (Nat.digits_ne_nil_iff_ne_zero.2 hv)] at h
      simp only [Option.map_some, Option.some.injEq] at h
      omega

/-- Quotation marks, backslashes, and the control characters that have a letter are written with a backslash; everything else
as it is. -/
theorem C103_escape (b : Nat) :
    (b = '"'.toNat → escape b = ascii "\\\"") ∧ (b = '\\'.toNat → escape b = ascii "\\\\") ∧ (b = 0 → escape b = ascii "\\0")
      ∧ (b = '\t'.toNat → escape b = ascii "\\t") ∧ (b = '\n'.toNat → escape b = ascii "\\n")
      ∧ (b = '\r'.toNat → escape b = ascii "\\r")
      ∧ (b ∉ ['"'.toNat, '\\'.toNat, 0, '\t'.toNat, '\n'.toNat, '\r'.toNat] → escape b = [b]) := by
  refine ⟨?_, ?_, ?_, ?_, ?_, ?_, ?_⟩
  iterate 6 (rintro rfl; decide +kernel)
  intro h
  have e : ['"'.toNat, '\\'.toNat, 0, '\t'.toNat, '\n'.toNat, '\r'.toNat] = [34, 92, 0, 9, 10, 13] := by decide
  rw [e] at h
  simp only [List.mem_cons, List.not_mem_nil, not_or, or_false] at h
  simp [escape, h]

/-- `report.rs:41-51`: the kind, the module, the name, the version in decimal, and the fields with a comma behind each of them. -/
theorem C103_format (m n : Str) (f : Fields) (v : Nat) : ∃ ds, Decimal v ds ∧ ∀ k : TyTy,
    text (.mk n m f k v) =
      (match k with
        | .struct => ascii "Struct"
        | .union => ascii "Union"
        | .enum s => ascii "Enum(\"" ++ s.flatMap escape ++ ascii "\")")
      ++ ascii " " ++ m ++ ascii " :: " ++ n ++ ascii " (version" ++ ds ++ ascii ") {"
      ++ (fieldList f).flatMap (fun x => x.1 ++ ascii ": " ++ text x.2 ++ ascii ", ") ++ ascii "}" := by
  refine ⟨versionText v, decimal_version v, fun k => ?_⟩
  have e1 : ascii "Struct" = tStruct := by decide +kernel
  have e2 : ascii "Union" = tUnion := by decide +kernel
  have e3 : ascii "Enum(\"" = tEnum := by decide +kernel
  have e4 : ascii "\")" = tEnumEnd := by decide +kernel
  have e5 : ascii " " = [32] := by decide +kernel
  have e6 : ascii " :: " = tColons := by decide +kernel
  have e7 : ascii " (version" = tVersion := by decide +kernel
  have e8 : ascii ") {" = tOpen := by decide +kernel
  have e9 : ascii ": " = tField := by decide +kernel
  have e10 : ascii ", " = tComma := by decide +kernel
  have e11 : ascii "}" = tClose := by decide +kernel
  have hf : ∀ f : Fields, fieldsText f = (fieldList f).flatMap (fun x => x.1 ++ tField ++ text x.2 ++ tComma) := by
    intro f
    exact fieldsText_list f
  rw [e1, e2, e3, e4, e5, e6, e7, e8, e9, e10, e11, text, hf]
  cases k <;> rfl

/-- libloading.rs:92-96: a symbol of another type is refused with both texts, that of the loader first; one of the same type is
handed out. -/
theorem C103_mismatch (loader lib : Report) :
    getStabbied loader lib = if isCompatible lib loader then none
      else some (ascii "Report mismatch: loader(" ++ text loader ++ ascii "),  lib(" ++ text lib) := by
  have e1 : ascii "Report mismatch: loader(" = tLoader := by decide +kernel
  have e2 : ascii "),  lib(" = tLib := by decide +kernel
  rw [e1, e2]
  rfl

/-- `C103_format`: `Struct m :: A (version10) {x: Struct  :: u8 (version0) {}, }`. -/
example : text (.mk [65] [109] (.some [120] (.mk [117, 56] [] .none .struct 0) .none) .struct 10)
    = ascii "Struct m :: A (version10) {x: Struct  :: u8 (version0) {}, }" := by
  simp only [text, fieldsText, versionText]
  decide +kernel

/-- Modules and names in the reports of the library's own types. -/
theorem C103_modules (n : Str) (v : Int) (t u : Ty) :
    (reportOf (.prim n)).module = ascii "stabby_abi::stable_impls" ∧ (reportOf (.wrap n t)).module = ascii "stabby_abi::stable_impls" ∧
    (reportOf (.nonX n v)).module = ascii "stabby_abi::num" ∧
    (reportOf (.sig t u)).module = ascii "stabby" ∧ (reportOf (.sig t u)).name = ascii "signature" ∧
    (reportOf (.option t)).module = ascii "core::option" ∧ (reportOf (.option t)).name = ascii "Option" ∧
    (reportOf (.resultOk t u)).module = ascii "core::result" ∧ (reportOf (.resultOk t u)).name = ascii "Result" ∧
    (reportOf (.resultErr t u)).module = ascii "core::result" ∧ (reportOf (.resultErr t u)).name = ascii "Result" ∧
    (fieldList (reportOf (.wrap n t)).fields).map Prod.fst = [ascii "inner"] ∧
    (fieldList (reportOf (.sig t u)).fields).map Prod.fst = [ascii "_", ascii "_"] ∧
    (fieldList (reportOf (.option t)).fields).map Prod.fst = [ascii "Some"] ∧
    (fieldList (reportOf (.resultOk t u)).fields).map Prod.fst = [ascii "Ok"] ∧
    (fieldList (reportOf (.resultErr t u)).fields).map Prod.fst = [ascii "Err"] ∧
    (reportOf (.option t)).tyty = .enum (ascii "rust") := by
  simp only [reportOf, Report.module, Report.name, Report.fields, Report.tyty, fieldList, List.map]
  decide +kernel

end Verif.Props.ReportText
