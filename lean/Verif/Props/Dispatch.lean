import Verif.Macros.Dispatch
import Verif.Props.Options
/-! C107: the arguments of attributes take effect or are refused. -/
namespace Verif.Props.Dispatch
open Verif.Macros.Options Verif.Macros.Dispatch Verif.Props.Options

/-- The item that something is generated for. -/
def For : Gen → Item → Prop
  | .type k _, .type k' => k = k'
  | .fn, .fn false => True
  | .future _ _ _, .fn true => True
  | .trait _, .trait => True
  | .block, .asyncBlock => True
  | _, _ => False

/-- Whatever is generated is for the item that the attribute is on, and nothing is for anything but types, functions, traits and `async` blocks.  Without
arguments, all of these are accepted. -/
theorem C107_item (args : List Tok) (i : Item) : (∀ g, stabby args i = some g → For g i) ∧ stabby args .other = none
    ∧ (i ≠ .other → ∃ g, stabby [] i = some g) := by
  refine ⟨?_, rfl, ?_⟩
  · intro g h
    match i with
    | .type .struct | .type .enum | .type .union =>
      simp only [stabby, Option.map_eq_some_iff] at h
      obtain ⟨a, -, rfl⟩ := h
      rfl
    | .fn true | .fn false =>
      simp only [stabby, Option.map_eq_some_iff] at h
      obtain ⟨a, -, rfl⟩ := h
      trivial
    | .trait =>
      simp only [stabby, Option.map_eq_some_iff] at h
      obtain ⟨a, -, rfl⟩ := h
      trivial
    | .asyncBlock => cases h; trivial
    | .other => cases h
  · match i with
    | .type .struct | .type .enum | .type .union => exact fun _ => ⟨_, rfl⟩
    | .fn true | .fn false => exact fun _ => ⟨_, rfl⟩
    | .trait => exact fun _ => ⟨_, rfl⟩
    | .asyncBlock => exact fun _ => ⟨_, rfl⟩
    | .other => exact fun h => absurd rfl h

/-- Options of types are those of `C86_options`; `no_opt` is for structs. -/
theorem C107_types (k : Kind) (trailing : Bool) (l : List Opt) (hl : ∀ o ∈ l, o.Plain) (a : Args) :
    stabby (print trailing l) (.type k) = some (.type k a) ↔
      (.noOpt ∈ l → k = .struct) ∧ (∀ s ∈ versions l, parseU32 s ≠ none) ∧ a.optimize = decide (Opt.noOpt ∉ l)
        ∧ a.version = (((versions l).getLast?).bind parseU32).getD 0 ∧ a.module = (modules l).flatten := by
  cases k <;> simp [stabby, C86_options _ _ _ hl]

/-- Traits are checked if `checked` is written; nothing else can be written. -/
theorem C107_trait (args : List Tok) :
    (∀ b, stabby args .trait = some (.trait b) ↔ args = if b then [.id "checked".toList] else [])
      ∧ (args ≠ [] → args ≠ [.id "checked".toList] → stabby args .trait = none) := by
  have e : "checked".toList = checked := by decide
  rw [e]
  constructor
  · intro b
    simp only [stabby, traitArgs]
    cases b
    · by_cases h1 : args = [.id checked]
      · subst h1; simp
      · by_cases h2 : args = [] <;> simp [h1, h2]
    · by_cases h1 : args = [.id checked]
      · simp [h1]
      · by_cases h2 : args = [] <;> simp [h1, h2]
  · intro h1 h2
    simp [stabby, traitArgs, h1, h2]

/-- Futures of `async` functions have the markers that were not renounced, and the last lifetime given. -/
theorem C107_future (trailing : Bool) (l : List FnOpt) :
    stabby (printFn trailing l) (.fn true)
      = some (.future (decide (.unsend ∉ l)) (decide (.unsync ∉ l)) ((lifetimes l).getLast?.getD "static".toList)) := by
  have e : "static".toList = static_ := by decide
  rw [e]
  simp [stabby, C86_functions, function]

theorem attrs_print : ∀ (args : List Tok) (this a : Attrs), attrs args this = some a → ∃ trailing l, args = printFn trailing l
  | [], _, _, _ => ⟨false, [], rfl⟩
  | [t], this, a, h => by
    have e1 : "unsend".toList = unsend := by decide
    have e2 : "unsync".toList = unsync := by decide
    match t with
    | .lt s => exact ⟨false, [.lt s], rfl⟩
    | .id s =>
      simp only [attrs, attr] at h
      by_cases h1 : s = unsend
      · exact ⟨false, [.unsend], by simp [printFn, FnOpt.tok, e1, h1]⟩
      · by_cases h2 : s = unsync
        · exact ⟨false, [.unsync], by simp [printFn, FnOpt.tok, e2, h2]⟩
        · simp [h1, h2] at h
    | .eq | .comma | .int s | .tree n => simp [attrs, attr] at h
  | t :: .comma :: r, this, a, h => by
    have e1 : "unsend".toList = unsend := by decide
    have e2 : "unsync".toList = unsync := by decide
    have ho : ∃ o : FnOpt, t = o.tok ∧ ∃ this', attrs r this' = some a := by
      simp only [attrs] at h
      match t with
      | .lt s => exact ⟨.lt s, rfl, _, h⟩
      | .id s =>
        simp only [attr] at h
        by_cases h1 : s = unsend
        · exact ⟨.unsend, by simp [FnOpt.tok, e1, h1], _, by simpa [h1] using h⟩
        · by_cases h2 : s = unsync
          · subst h2
            exact ⟨.unsync, by simp [FnOpt.tok, e2], _, by simpa [h1] using h⟩
          · simp [h1, h2] at h
      | .eq | .comma | .int s | .tree n => simp [attr] at h
    obtain ⟨o, rfl, this', h'⟩ := ho
    obtain ⟨trailing, l, rfl⟩ := attrs_print r this' a h'
    cases l with
    | nil => exact ⟨true, [o], rfl⟩
    | cons p l => exact ⟨trailing, o :: p :: l, rfl⟩
  | t :: .id _ :: r, _, _, h => by simp [attrs] at h
  | t :: .eq :: r, _, _, h => by simp [attrs] at h
  | t :: .int _ :: r, _, _, h => by simp [attrs] at h
  | t :: .lt _ :: r, _, _, h => by simp [attrs] at h
  | t :: .tree _ :: r, _, _, h => by simp [attrs] at h

/-- Functions take lists of `unsend`, `unsync` and lifetimes, with a comma at the end or none, and nothing else. -/
theorem C107_functions (isAsync : Bool) (args : List Tok) :
    (∃ g, stabby args (.fn isAsync) = some g) ↔ ∃ trailing l, args = printFn trailing l := by
  constructor
  · rintro ⟨g, h⟩
    simp only [stabby, Option.map_eq_some_iff] at h
    obtain ⟨a, h, -⟩ := h
    exact attrs_print args _ a h
  · rintro ⟨trailing, l, rfl⟩
    exact ⟨_, by rw [stabby, C86_functions]; rfl⟩

/-- Exports have canaries if `canaries` is written; nothing else can be written, and only functions are exported. -/
theorem C107_export (args : List Tok) (i : Item) (b : Bool) :
    export_ args i = some b ↔ (∃ isAsync, i = .fn isAsync) ∧ args = if b then [.id "canaries".toList] else [] := by
  have e : "canaries".toList = canaries := by decide
  rw [e]
  match i with
  | .fn isAsync =>
    match args with
    | [] => cases b <;> simp [export_, exportArgs]
    | [.id s] => by_cases h : s = canaries <;> cases b <;> simp [export_, exportArgs, h]
    | [.eq] | [.comma] | [.int _] | [.lt _] | [.tree _] => cases b <;> simp [export_, exportArgs]
    | t :: u :: r => cases b <;> cases t <;> simp [export_, exportArgs]
  | .type _ | .trait | .asyncBlock | .other => cases b <;> simp [export_]

/-- Functions that aren't `async` take the arguments of those that are, to no effect. -/
theorem C107_function_refuted (trailing : Bool) (l : List FnOpt) : stabby (printFn trailing l) (.fn false) = stabby [] (.fn false) := by
  simp only [stabby, C86_functions]
  rfl

/-- `async` blocks take anything, to no effect. -/
theorem C107_block_refuted (args : List Tok) : stabby args .asyncBlock = stabby [] .asyncBlock := rfl

/-- The argument that the message for unknown arguments names is itself unknown. -/
theorem C107_message_refuted : advised = "canaried".toList ∧ ∀ isAsync, export_ [.id advised] (.fn isAsync) = none := by
  constructor
  · decide
  · intro b; cases b <;> decide +kernel

/-- `#[stabby(checked)] trait`, `#[stabby('a, unsync)] async fn`, `#[export(canaries)] fn`. -/
example : stabby [.id "checked".toList] .trait = some (.trait true)
    ∧ stabby [.lt ['a'], .comma, .id "unsync".toList] (.fn true) = some (.future true false ['a'])
    ∧ export_ [.id "canaries".toList] (.fn false) = some true ∧ stabby [.id "version".toList] .trait = none := by decide +kernel

end Verif.Props.Dispatch
