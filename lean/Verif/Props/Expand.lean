import Verif.Import.Expand
import Verif.Import.Load
import Verif.Props.Canary

/-! C84: what `#[stabby::import]` expands to. -/
namespace Verif.Props.Expand
open Verif.Macros Verif.Import.Expand

/-- The functions of a block. -/
def fns (items : List Item) : List Fn := items.filterMap fun i => match i with
  | .fn f => some f
  | _ => none

/-- The names of the foreign types of a block. -/
def types (items : List Item) : List Name := items.filterMap fun i => match i with
  | .type n => some n
  | _ => none

/-- The symbols that the linker has to find. -/
def symbols (e : Expansion) : List Name := e.externs.filterMap fun x => match x with
  | .item (.fn f) => some f.name
  | .item _ => none
  | .canary n => some n
  | .report n => some n
  | .stabbied n _ => some n

theorem parse_go (alphabetic : Char → Bool) : ∀ (args : List (Name × Name)) (s s' : Option Nat × List (Name × Name)),
    args.foldlM (parseArg alphabetic) s = some s' →
    s'.2 = s.2 ++ args.filter (fun a => decide (a.1 ≠ key)) ∧
    s'.1 = ((args.filter fun a => decide (a.1 = key)).getLast?.map (fun a => Canary.fromStr alphabetic a.2)).getD s.1 ∧
    ∀ a ∈ args, a.1 = key → Canary.fromStr alphabetic a.2 ≠ none
  | [], s, s', h => by
    simp at h
    simp [h]
  | (k, v) :: args, s, s', h => by
    rw [List.foldlM_cons, Option.bind_eq_bind, Option.bind_eq_some_iff] at h
    obtain ⟨s1, h1, h2⟩ := h
    obtain ⟨e1, e2, e3⟩ := parse_go alphabetic args _ _ h2
    rw [parseArg] at h1
    by_cases hk : k = key
    · rw [if_pos hk, Option.map_eq_some_iff] at h1
      obtain ⟨t, h1, rfl⟩ := h1
      refine ⟨by simp [e1, hk], ?_, ?_⟩
      · rw [e2]
        simp only [hk, List.filter_cons, decide_true, if_true]
        cases hf : args.filter (fun a => decide (a.1 = key)) with
        | nil =>
          rw [hf] at e2
          simp [h1]
        | cons x xs => simp [List.getLast?_cons]
      · intro a ha hak
        rcases List.mem_cons.1 ha with rfl | ha
        · rw [h1]; simp
        · exact e3 a ha hak
    · rw [if_neg hk] at h1
      simp at h1
      subst h1
      refine ⟨by simp [e1, hk], ?_, ?_⟩
      · rw [e2]
        simp only [List.filter_cons, hk, decide_false, Bool.false_eq_true, if_false]
      · intro a ha hak
        rcases List.mem_cons.1 ha with rfl | ha
        · exact absurd hak hk
        · exact e3 a ha hak

/-- All arguments but the canaries end up in `#[link]`, in the order in which they are written; the last canaries count. -/
theorem C84_args (alphabetic : Char → Bool) (args : List (Name × Name)) (c : Option Nat) (link : List (Name × Name))
    (h : parseArgs alphabetic args = some (c, link)) :
    link = args.filter (fun a => decide (a.1 ≠ key)) ∧
    (∀ v l, args.filter (fun a => decide (a.1 = key)) = l ++ [(key, v)] → c = Canary.fromStr alphabetic v ∧ c ≠ none) ∧
    ((∀ a ∈ args, a.1 ≠ key) → c = none) := by
  obtain ⟨h1, h2, h3⟩ := parse_go alphabetic args _ _ h
  refine ⟨by simpa using h1, fun v l hv => ?_, fun hn => ?_⟩
  · rw [hv] at h2
    simp at h2
    have hm : (key, v) ∈ args := by
      have : (key, v) ∈ args.filter (fun a => decide (a.1 = key)) := by rw [hv]; simp
      simp at this; exact this
    exact ⟨h2, h2 ▸ h3 _ hm rfl⟩
  · rw [List.filter_eq_nil_iff.2 (by simpa using hn)] at h2
    simpa using h2

/-- Without canaries among the arguments, all arguments are those of `#[link]`. -/
theorem parse_none (alphabetic : Char → Bool) (args : List (Name × Name)) (hn : ∀ a ∈ args, a.1 ≠ key) :
    parseArgs alphabetic args = some (none, args) := by
  have : ∀ (args l : List (Name × Name)) (c : Option Nat), (∀ a ∈ args, a.1 ≠ key) → args.foldlM (parseArg alphabetic) (c, l) = some (c, l ++ args) := by
    intro args
    induction args with
    | nil => simp
    | cons a args ih =>
      intro l c h
      rw [List.foldlM_cons, parseArg, if_neg (h a (by simp))]
      simp [ih (l ++ [a]) c (fun b hb => h b (by simp [hb]))]
  simpa [parseArgs] using this args [] none hn

/-- What a function contributes to an expansion with reports. -/
def checkedParts (e : Expansion) (items : List Item) : Expansion :=
  { e with
    externs := e.externs ++ items.flatMap fun i => match i with
      | .fn f => [.report (reportName f.name), .stabbied (stabbiedName f.name) f.sig]
      | .type n => [.item (.type n)]
      | _ => []
    statics := e.statics ++ (fns items).map fun f => .checked f.name f.sig (stabbiedName f.name) (reportName f.name)
    uses := e.uses ++ (fns items).map fun f => ⟨f.vis, f.name, f.name⟩ }

/-- The items that are supported. -/
def Item.ok (async : Bool) : Item → Prop
  | .fn f => async = false → f.isAsync = false
  | .type _ => True
  | .static _ => False
  | .other => False

theorem checked_go : ∀ (items : List Item) (e e' : Expansion), items.foldlM checkedItem e = some e' ↔
    (∀ i ∈ items, Item.ok false i) ∧ e' = checkedParts e items
  | [], e, e' => by
    cases e
    simp [checkedParts, fns, eq_comm]
  | i :: items, e, e' => by
    rw [List.foldlM_cons, Option.bind_eq_bind, Option.bind_eq_some_iff]
    simp only [checked_go items]
    cases i with
    | fn f =>
      by_cases hf : f.isAsync = true
      · simp [checkedItem, hf, Item.ok]
      · simp [checkedItem, hf, Item.ok, checkedParts, fns]
    | static n => simp [checkedItem, Item.ok]
    | type n => simp [checkedItem, Item.ok, checkedParts, fns]
    | other => simp [checkedItem, Item.ok]

/-- What an import without canaries expands to: exactly the blocks of plain functions and types are accepted; every function becomes a checked import
that is named, typed and as visible as the function was, and that asks the linker for the two symbols that `#[stabby::export]` defines. -/
theorem C84_checked (alphabetic : Char → Bool) (b : Canary.Build) (block : Block) (e : Expansion) (hn : ∀ a ∈ block.args, a.1 ≠ key) :
    expand alphabetic b block = some e ↔
      (∀ i ∈ block.items, match i with
        | .fn f => f.isAsync = false
        | .type _ => True
        | _ => False) ∧
      e.attrs = block.attrs ∧ e.link = block.args ∧
      e.statics = (fns block.items).map (fun f => .checked f.name f.sig (f.name ++ "_stabbied_v3".toList) (f.name ++ "_stabbied_v3_report".toList)) ∧
      e.uses = (fns block.items).map (fun f => ⟨f.vis, f.name, f.name⟩) ∧
      e.externs = block.items.flatMap (fun i => match i with
        | .fn f => [.report (f.name ++ "_stabbied_v3_report".toList), .stabbied (f.name ++ "_stabbied_v3".toList) f.sig]
        | .type n => [.item (.type n)]
        | _ => []) := by
  have hr : ∀ n : Name, reportName n = n ++ "_stabbied_v3_report".toList := fun n => by
    rw [reportName, stabbiedName, List.append_assoc]; rfl
  rw [expand, parse_none alphabetic _ hn]
  simp only [Option.bind_eq_bind, Option.bind_some, checked_go]
  refine and_congr (forall_congr' fun i => imp_congr_right fun _ => ?_) ?_
  · cases i <;> simp [Item.ok]
  · cases e
    simp only [checkedParts, Expansion.mk.injEq, List.nil_append, ← hr]
    exact ⟨fun ⟨a, b, c, d, e⟩ => ⟨a, b, d, e, c⟩, fun ⟨a, b, c, d, e⟩ => ⟨a, b, e, c, d⟩⟩

/-- The canaries of a function. -/
def Canaries (b : Canary.Build) (spec : Nat) (n : Name) (l : List Name) : Prop := Canary.imports b spec n = some (n :: l)

theorem all_map {α β : Type} (g : α → β) : ∀ l : List (Option α), Canary.all (l.map fun o => o.map g) = (Canary.all l).map (List.map g)
  | [] => rfl
  | none :: l => rfl
  | some x :: l => by
    simp only [List.map_cons, Option.map_some, Canary.all, all_map g l]
    cases Canary.all l <;> rfl

theorem canaries_iff (b : Canary.Build) (spec : Nat) (n : Name) (l : List Name) : Canaries b spec n l ↔
    ∃ cs, Canary.canaries spec = some cs ∧ Canary.all (cs.map fun c => (Canary.suffix b c).map (n ++ ·)) = some l := by
  rw [Canaries, Canary.imports]
  cases hc : Canary.canaries spec with
  | none => simp
  | some cs =>
    have := all_map (n ++ ·) (cs.map (Canary.suffix b))
    simp only [List.map_map, Function.comp_def] at this
    simp only [Option.some.injEq, exists_eq_left', this]
    cases Canary.all (cs.map (Canary.suffix b)) <;> simp

/-- What the items of a block with canaries expand to. -/
inductive Canaried (b : Canary.Build) (spec : Nat) : List Item → List Extern → List Static → List Use → Prop
  | nil : Canaried b spec [] [] [] []
  | type {n items x s u} : Canaried b spec items x s u → Canaried b spec (.type n :: items) (.item (.type n) :: x) s u
  | fn {f items x s u} (ids : List Name) : Canaries b spec f.name ids → Canaried b spec items x s u →
    Canaried b spec (.fn f :: items) (.item (.fn f) :: (ids.map .canary ++ x))
      (.canaried (f.name ++ "_canaried".toList) { f.sig with isUnsafe := true } f.name ids :: s) (⟨f.vis, f.name ++ "_canaried".toList, f.name⟩ :: u)

theorem canaried_go (b : Canary.Build) (spec : Nat) : ∀ (items : List Item) (e e' : Expansion), items.foldlM (canariedItem b spec) e = some e' ↔
    ∃ x s u, Canaried b spec items x s u ∧ e' = ⟨e.attrs, e.link, e.externs ++ x, e.statics ++ s, e.uses ++ u⟩
  | [], e, e' => by
    cases e
    constructor
    · intro h
      simp at h
      exact ⟨[], [], [], .nil, by simp [h]⟩
    · rintro ⟨_, _, _, ⟨⟩, rfl⟩
      simp
  | i :: items, e, e' => by
    rw [List.foldlM_cons, Option.bind_eq_bind, Option.bind_eq_some_iff]
    simp only [canaried_go b spec items]
    cases i with
    | fn f =>
      constructor
      · rintro ⟨e1, h1, x, s, u, h2, rfl⟩
        rw [canariedItem] at h1
        simp only [Option.bind_eq_bind, Option.bind_eq_some_iff] at h1
        obtain ⟨cs, h3, ids, h4, h5⟩ := h1
        cases h5
        exact ⟨_, _, _, .fn ids ((canaries_iff ..).2 ⟨cs, h3, h4⟩) h2, by simp [canariedName]⟩
      · rintro ⟨_, _, _, ⟨⟩ | _ | @⟨_, _, x, s, u, ids, h1, h2⟩, rfl⟩
        obtain ⟨cs, h3, h4⟩ := (canaries_iff ..).1 h1
        exact ⟨_, by simp only [canariedItem, h3, h4, Option.bind_eq_bind, Option.bind_some]; rfl, x, s, u, h2, by simp [canariedName]⟩
    | static n =>
      simp only [canariedItem]
      constructor
      · rintro ⟨_, h, _⟩; cases h
      · rintro ⟨_, _, _, h, _⟩; cases h
    | type n =>
      simp only [canariedItem]
      constructor
      · rintro ⟨_, h, x, s, u, h1, rfl⟩
        cases h
        exact ⟨_, _, _, .type h1, by simp⟩
      · rintro ⟨_, _, _, h, rfl⟩
        cases h with
        | type h => exact ⟨_, rfl, _, _, _, h, by simp⟩
    | other =>
      simp only [canariedItem]
      constructor
      · rintro ⟨_, h, _⟩; cases h
      · rintro ⟨_, _, _, h, _⟩; cases h

/-- What an import with canaries expands to. -/
theorem C84_canaried (alphabetic : Char → Bool) (b : Canary.Build) (block : Block) (e : Expansion) (spec : Nat) (link : List (Name × Name))
    (h : parseArgs alphabetic block.args = some (some spec, link)) :
    expand alphabetic b block = some e ↔ e.attrs = block.attrs ∧ e.link = link ∧ Canaried b spec block.items e.externs e.statics e.uses := by
  rw [expand, h]
  simp only [Option.bind_eq_bind, Option.bind_some, canaried_go, List.nil_append]
  constructor
  · rintro ⟨x, s, u, h1, rfl⟩
    exact ⟨rfl, rfl, h1⟩
  · rintro ⟨h1, h2, h3⟩
    exact ⟨_, _, _, h3, by cases e; simp_all⟩

theorem canaried_symbols {b : Canary.Build} {spec : Nat} {items : List Item} {x : List Extern} {s : List Static} {u : List Use}
    (h : Canaried b spec items x s u) : ∀ n, n ∈ symbols ⟨[], [], x, s, u⟩ ↔ ∃ f ∈ fns items, ∃ l, Canary.imports b spec f.name = some l ∧ n ∈ l := by
  induction h with
  | nil => simp [fns, symbols]
  | type _ ih => simpa [fns, symbols] using ih
  | @fn f items x s u ids h1 _ ih =>
    intro n
    have ih := ih n
    simp only [symbols] at ih
    have hf : fns (.fn f :: items) = f :: fns items := rfl
    simp only [symbols, List.filterMap_cons, List.filterMap_append, List.mem_cons, List.mem_append, ih, hf, exists_eq_or_imp]
    rw [Canaries] at h1
    simp [h1, List.filterMap_map, Function.comp_def, or_assoc]

/-- With canaries, the linker has to find the functions and their canaries, and nothing else. -/
theorem C84_symbols (alphabetic : Char → Bool) (b : Canary.Build) (block : Block) (e : Expansion) (spec : Nat) (link : List (Name × Name))
    (h : parseArgs alphabetic block.args = some (some spec, link)) (he : expand alphabetic b block = some e) (n : Name) :
    n ∈ symbols e ↔ ∃ f ∈ fns block.items, ∃ l, Canary.imports b spec f.name = some l ∧ n ∈ l := by
  have := canaried_symbols ((C84_canaried alphabetic b block e spec link h).1 he).2.2 n
  simpa [symbols] using this

/-- A library that was built in the same way and exports all functions of the block has all symbols that an import with (any) canaries looks for. -/
theorem C84_same_build (alphabetic : Char → Bool) (hl : ∀ c, 'a' ≤ c → c ≤ 'z' → alphabetic c = true)
    (hu : alphabetic '_' = false) (b : Canary.Build) (hb : 8 ≤ b.commit.length)
    (block : Block) (e : Expansion) (hc : ∃ a ∈ block.args, a.1 = key) (he : expand alphabetic b block = some e) (lib : List Name)
    (hlib : ∀ f ∈ fns block.items, ∃ l, Canary.exports b f.name = some l ∧ ∀ n ∈ l, n ∈ lib) : ∀ n ∈ symbols e, n ∈ lib := by
  intro n hn
  cases h : parseArgs alphabetic block.args with
  | none => simp [expand, h] at he
  | some p =>
    obtain ⟨c, link⟩ := p
    obtain ⟨h1, h2, h3⟩ := C84_args alphabetic _ _ _ h
    have hne : block.args.filter (fun a => decide (a.1 = key)) ≠ [] := by
      obtain ⟨a, ha, hk⟩ := hc
      intro h0
      have := List.filter_eq_nil_iff.1 h0 a ha
      simp [hk] at this
    have hlast := List.dropLast_concat_getLast hne
    have hmem := List.getLast_mem hne
    rw [List.mem_filter] at hmem
    have hk : (List.getLast _ hne).1 = key := by simpa using hmem.2
    obtain ⟨hv, hv'⟩ := h2 (List.getLast _ hne).2 (List.dropLast _) (hlast.symm.trans (congrArg (fun x => _ ++ [x]) (Prod.ext hk rfl)))
    cases c with
    | none => exact absurd rfl hv'
    | some spec =>
      obtain ⟨f, hf, l, hi, hnl⟩ := (C84_symbols alphabetic b block e spec link h he n).1 hn
      obtain ⟨l', hx, hall⟩ := hlib f hf
      obtain ⟨_, hx', _, hs⟩ := Canary.C50_same_build b hb f.name []
      obtain ⟨i, hi', hsub⟩ := hs spec (Canary.C50_range alphabetic hl hu _ _ hv.symm)
      rw [hx] at hx'
      rw [hi] at hi'
      cases hx'
      cases hi'
      exact hall n (hsub n hnl)

/-- An expansion is one or the other. -/
theorem expand_cases (alphabetic : Char → Bool) (b : Canary.Build) (block : Block) (e : Expansion) (he : expand alphabetic b block = some e) :
    e.link = block.args.filter (fun a => decide (a.1 ≠ key)) ∧
    ((∀ i ∈ block.items, Item.ok false i) ∧ e = checkedParts ⟨block.attrs, e.link, [], [], []⟩ block.items ∨
      ∃ spec, Canaried b spec block.items e.externs e.statics e.uses) := by
  cases h : parseArgs alphabetic block.args with
  | none => simp [expand, h] at he
  | some p =>
    obtain ⟨c, link⟩ := p
    obtain ⟨h1, -, -⟩ := C84_args alphabetic _ _ _ h
    rw [expand, h] at he
    cases c with
    | none =>
      simp only [Option.bind_eq_bind, Option.bind_some, checked_go] at he
      obtain ⟨h2, rfl⟩ := he
      exact ⟨h1, .inl ⟨h2, rfl⟩⟩
    | some spec =>
      simp only [Option.bind_eq_bind, Option.bind_some, canaried_go] at he
      obtain ⟨x, s, u, h2, rfl⟩ := he
      exact ⟨h1, .inr ⟨spec, by simpa using h2⟩⟩

theorem type_mem {b : Canary.Build} {spec : Nat} {items : List Item} {x : List Extern} {s : List Static} {u : List Use} (n : Name)
    (h : Canaried b spec items x s u) : .item (.type n) ∈ x ↔ .type n ∈ items := by
  induction h with
  | nil => simp
  | type _ ih => simp [ih]
  | fn ids _ _ ih => simp [ih]

theorem use_mem {b : Canary.Build} {spec : Nat} {items : List Item} {x : List Extern} {s : List Static} {u : List Use}
    (h : Canaried b spec items x s u) : u.map (fun u => (u.vis, u.outer)) = (fns items).map fun f => (f.vis, f.name) := by
  induction h with
  | nil => simp [fns]
  | type _ ih => simpa [fns] using ih
  | fn ids _ _ ih => simpa [fns] using ih

theorem static_mem {b : Canary.Build} {spec : Nat} {items : List Item} {x : List Extern} {s : List Static} {u : List Use}
    (h : Canaried b spec items x s u) (f : Fn) (hf : f ∈ fns items) :
    ∃ n sym ids, .canaried n { f.sig with isUnsafe := true } sym ids ∈ s := by
  induction h with
  | nil => simp [fns] at hf
  | type _ ih => exact ih hf
  | @fn g items x s u ids _ _ ih =>
    have hf' : f = g ∨ f ∈ fns items := by simpa [fns] using hf
    rcases hf' with rfl | hf'
    · exact ⟨_, _, _, List.mem_cons_self⟩
    · obtain ⟨n, sym, ids, h⟩ := ih hf'
      exact ⟨n, sym, ids, List.mem_cons_of_mem _ h⟩

/-- A path means the same in the module of the expansion. -/
def Same (v : Env) (foreign : Name → Nat) (e : Expansion) (p : Path) : Prop := (v.inside foreign e).resolve p = v.resolve p

/-- Types named by paths after `::`, and types of crates and the prelude whose names aren't declared in the module nor in the block, are the same
in the module of the expansion. -/
theorem C84_names_partial (v : Env) (foreign : Name → Nat) (e : Expansion) (n : Name) :
    Same v foreign e (.root n) ∧ (v.here n = none → .item (.type n) ∉ e.externs → Same v foreign e (.name n)) := by
  refine ⟨rfl, fun h1 h2 => ?_⟩
  simp [Same, Env.resolve, Env.inside, h1, h2]

/-- Foreign types of the block can be named in its functions. -/
theorem C84_foreign (v : Env) (foreign : Name → Nat) (alphabetic : Char → Bool) (b : Canary.Build) (block : Block) (e : Expansion)
    (he : expand alphabetic b block = some e) (n : Name) :
    (.type n ∈ block.items → (v.inside foreign e).resolve (.name n) = some (foreign n)) ∧
    (.type n ∉ block.items → (v.inside foreign e).resolve (.name n) = v.prelude n) := by
  have hm : .item (.type n) ∈ e.externs ↔ .type n ∈ block.items := by
    rcases (expand_cases alphabetic b block e he).2 with ⟨_, h⟩ | ⟨spec, h⟩
    · rw [h]
      simp only [checkedParts, List.nil_append, List.mem_flatMap]
      constructor
      · rintro ⟨i, hi, hx⟩
        cases i <;> simp at hx
        subst hx
        exact hi
      · exact fun hi => ⟨_, hi, by simp⟩
    · exact type_mem n h
  simp only [Env.resolve, Env.inside, hm]
  exact ⟨fun h => by simp [h], fun h => by simp [h]⟩

/-- Not so types that are declared or imported in the module of the block: inside the expansion their names stand for what the prelude calls so, if
anything, as the generated module doesn't import the names of the one around it. -/
theorem C84_names_refuted (v : Env) (foreign : Name → Nat) (e : Expansion) (n : Name) (t : Nat) (h : v.here n = some t)
    (hn : .item (.type n) ∉ e.externs) (hp : v.prelude n ≠ some t) :
    v.resolve (.name n) = some t ∧ (v.inside foreign e).resolve (.name n) = v.prelude n ∧ ¬ Same v foreign e (.name n) ∧
    v.resolve (.self n) = some t ∧ (v.inside foreign e).resolve (.self n) = none ∧ (v.inside foreign e).resolve (.super n) = some t := by
  simp [Same, Env.resolve, Env.inside, h, hn, hp]

/-- Foreign types of the block are not re-exported: only functions are. -/
theorem C84_types_refuted (alphabetic : Char → Bool) (b : Canary.Build) (block : Block) (e : Expansion) (he : expand alphabetic b block = some e) :
    ∀ u ∈ e.uses, ∃ f ∈ fns block.items, u.outer = f.name ∧ u.vis = f.vis := by
  intro u hu
  rcases (expand_cases alphabetic b block e he).2 with ⟨_, h⟩ | ⟨spec, h⟩
  · rw [h] at hu
    simp only [checkedParts, List.nil_append, List.mem_map] at hu
    obtain ⟨f, hf, rfl⟩ := hu
    exact ⟨f, hf, rfl, rfl⟩
  · have := List.mem_map_of_mem (f := fun u : Use => (u.vis, u.outer)) hu
    rw [use_mem h, List.mem_map] at this
    obtain ⟨f, hf, h⟩ := this
    simp only [Prod.mk.injEq] at h
    exact ⟨f, hf, h.2.symm, h.1.symm⟩

/-- Whether Rust has the type of a static: types of functions have no parameters of their own (`for<'a> fn(..)` is not what is generated). -/
def Static.typed : Static → Prop
  | .canaried _ sig _ _ => sig.generics = 0
  | .checked _ sig _ _ => sig.generics = 0

/-- Functions with lifetime parameters are accepted, but what they expand to is not Rust. -/
theorem C84_generic_refuted (alphabetic : Char → Bool) (b : Canary.Build) (block : Block) (e : Expansion) (he : expand alphabetic b block = some e)
    (f : Fn) (hf : f ∈ fns block.items) (hg : f.sig.generics ≠ 0) : ∃ s ∈ e.statics, ¬ Static.typed s := by
  rcases (expand_cases alphabetic b block e he).2 with ⟨_, h⟩ | ⟨spec, h⟩
  · rw [h]
    exact ⟨.checked f.name f.sig (stabbiedName f.name) (reportName f.name), List.mem_map.2 ⟨f, hf, rfl⟩, hg⟩
  · obtain ⟨n, sym, ids, h⟩ := static_mem h f hf
    exact ⟨_, h, hg⟩

/-- `#[link]` is there even if there is nothing to link to: then it has no name, which Rust refuses. -/
theorem C84_link_refuted (alphabetic : Char → Bool) (b : Canary.Build) (block : Block) (e : Expansion) (he : expand alphabetic b block = some e)
    (ha : ∀ a ∈ block.args, a.1 ≠ "name".toList) : ∀ a ∈ e.link, a.1 ≠ "name".toList := by
  rw [(expand_cases alphabetic b block e he).1]
  exact fun a h => ha a (List.mem_filter.1 h).1

/-- The same function without its attributes. -/
def Item.bare : Item → Item
  | .fn f => .fn { f with attrs := [] }
  | i => i

/-- Without canaries, attributes of the functions, such as `#[cfg(..)]` and documentation, are dropped. -/
theorem C84_attrs_refuted (alphabetic : Char → Bool) (b : Canary.Build) (block : Block) (hn : ∀ a ∈ block.args, a.1 ≠ key) :
    expand alphabetic b block = expand alphabetic b { block with items := block.items.map Item.bare } := by
  have : ∀ (items : List Item) (e : Expansion), items.foldlM checkedItem e = (items.map Item.bare).foldlM checkedItem e := by
    intro items
    induction items with
    | nil => simp
    | cons i items ih =>
      intro e
      have h : checkedItem e i = checkedItem e (Item.bare i) := by cases i <;> rfl
      simp [List.foldlM_cons, h, ih]
  simp only [expand, parse_none alphabetic _ hn, Option.bind_eq_bind, Option.bind_some]
  exact this _ _

/-! ### Examples -/

/-- A function `f(Vec) -> ::core::i32` with a lifetime and an attribute, in a block with a foreign type. -/
def f : Fn := ⟨[7], 1, ['f'], false, ⟨false, 1, [.name ['V', 'e', 'c']], some (.root ['i'])⟩⟩
def checked : Block := ⟨[("name".toList, "lib".toList)], [3], [.type ['T'], .fn f]⟩
def canaried : Block := ⟨[("name".toList, "lib".toList), (key, "debug".toList), ("kind".toList, "dylib".toList)], [3], [.type ['T'], .fn f]⟩
def build : Canary.Build := ⟨1, 2, 3, "12345678".toList, ['3'], true, ['4'], ['t'], ['h']⟩
def alpha (c : Char) : Bool := c.isAlpha

example : parseArgs alpha canaried.args = some (some Canary.DEBUG, [("name".toList, "lib".toList), ("kind".toList, "dylib".toList)]) := by decide +kernel
example : (expand alpha build checked).map (·.externs) =
    some [.item (.type ['T']), .report "f_stabbied_v3_report".toList, .stabbied "f_stabbied_v3".toList f.sig] := by decide +kernel
example : (expand alpha build canaried).map symbols = some ["f".toList, "f_canary_debug1".toList] := by decide +kernel
example : (expand alpha build canaried).map (·.uses) = some [⟨1, "f_canaried".toList, ['f']⟩] := by decide +kernel
example : expand alpha build { checked with items := [.static ['s']] } = none := by decide +kernel
example : (expand alpha build { checked with args := [] }).map (·.link) = some [] := by decide +kernel
/-- A module that imports stabby's `Vec` (1), where the prelude has the standard one (2). -/
def env : Env := ⟨fun n => if n = "Vec".toList then some 1 else none, fun _ => none, fun n => if n = "Vec".toList then some 2 else none, fun _ => some 3⟩
example : (expand alpha build checked).map (fun e => (env.resolve (.name "Vec".toList), (env.inside (fun _ => 9) e).resolve (.name "Vec".toList),
    (env.inside (fun _ => 9) e).resolve (.name ['T']))) = some (some 1, some 2, some 9) := by decide +kernel
example : ∀ f ∈ fns canaried.items, ∃ l, Canary.exports build f.name = some l ∧ ∀ n ∈ l, n ∈ (Canary.exports build ['f']).getD [] := by
  intro f hf
  simp [fns, canaried] at hf
  subst hf
  exact ⟨(Canary.exports build ['f']).getD [], by decide +kernel, fun n h => h⟩

end Verif.Props.Expand
