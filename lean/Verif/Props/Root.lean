import Verif.Macros.Root
/-! C109: generated code refers to stabby-abi.

The specification is what paths mean to rustc: `crate` is the crate that is compiled, and other names are those of the dependencies that cargo passes. -/
namespace Verif.Props.Root
open Verif.Macros.Root

/-- What is compiled: the library of the package, or its unit tests; an integration test or a bench; an example or a documentation test. -/
inductive Target where
  | lib | unitTests | outside | example

/-- Whether cargo sets `CARGO_TARGET_TMPDIR`. -/
def Target.tmpdir : Target → Bool
  | .outside => true
  | _ => false

/-- Whether `[dev-dependencies]` are passed. -/
def Target.dev : Target → Bool
  | .lib => false
  | _ => true

/-- Whether `crate` is the library of the package; if not, the library is one of the crates that are passed. -/
def Target.own : Target → Bool
  | .lib | .unitTests => true
  | _ => false

/-- The crate is passed to rustc, under that name. -/
def Passed (m : Manifest) (t : Target) (name pkg : Name) : Prop :=
  (∃ d ∈ m.deps, d.enabled = true ∧ (d.dev = true → t.dev = true) ∧ sanitize d.key = name ∧ d.pkg = pkg) ∨
    t.own = false ∧ name = sanitize m.name ∧ pkg = m.name

/-- The path is that of stabby-abi: it is the crate, or the module `abi` of the crate `stabby` (stabby/src/lib.rs:31). -/
def Denotes (m : Manifest) (t : Target) (p : Path) : Prop :=
  match p.start with
  | .itself => t.own = true ∧ m.name = (if p.abi then "stabby" else "stabby-abi").toList
  | .name n => Passed m t n (if p.abi then "stabby" else "stabby-abi").toList

/-- Generated code names stabby-abi. -/
def Works (m : Manifest) (t : Target) : Prop := ∃ p, tlMod m t.tmpdir = some p ∧ Denotes m t p

theorem names : stabbyAbi = "stabby-abi".toList ∧ stabby = "stabby".toList := by decide +kernel

/-- The entry is passed for that target. -/
def Counts (t : Target) (d : Dep) : Prop := d.enabled = true ∧ (d.dev = true → t.dev = true)

theorem last_mem {m : Manifest} {p : Name} {d : Dep} (h : (m.deps.filter fun d => d.pkg = p).getLast? = some d) : d ∈ m.deps ∧ d.pkg = p := by
  have := List.mem_of_getLast? h
  simpa using this

/-- C109: whenever the package is stabby or stabby-abi, or depends on one of them, under whatever name, and cargo passes all entries for them, generated code refers to
stabby-abi.  Partial: not so in examples and documentation tests of these two packages themselves; and entries that are not passed, see `C109_entry_refuted`. -/
theorem C109_works_partial (m : Manifest) (t : Target)
    (hown : m.name = "stabby-abi".toList ∨ m.name = "stabby".toList → t.own = true ∨ t.tmpdir = true)
    (hall : ∀ d ∈ m.deps, d.pkg = "stabby-abi".toList ∨ d.pkg = "stabby".toList → Counts t d)
    (hone : m.name = "stabby-abi".toList ∨ m.name = "stabby".toList ∨ ∃ d ∈ m.deps, d.pkg = "stabby-abi".toList ∨ d.pkg = "stabby".toList) :
    Works m t := by
  rw [← names.1, ← names.2] at *
  have key : ∀ (p : Name) (abi : Bool) (f : Found), p = (if abi then stabby else stabbyAbi) → (p = stabbyAbi ∨ p = stabby) →
      crateName m t.tmpdir p = some f → Denotes m t ⟨f, abi⟩ := by
    intro p abi f hp hor hf
    unfold crateName at hf
    have hp' : p = (if abi then "stabby" else "stabby-abi").toList := by
      rw [hp]; cases abi
      · exact names.1
      · exact names.2
    by_cases hn : m.name = p
    · rw [if_pos hn] at hf
      have ho := hown (by rw [hn]; exact hor)
      cases htm : t.tmpdir
      · rw [htm] at hf ho
        simp only [Bool.false_eq_true, if_false, Option.some.injEq, or_false] at hf ho
        subst hf
        exact ⟨ho, hn.trans hp'⟩
      · rw [htm] at hf
        simp only [if_true, Option.some.injEq] at hf
        subst hf
        refine Or.inr ⟨?_, rfl, hp'.symm.trans hn.symm⟩
        cases t <;> first | rfl | cases htm
    · rw [if_neg hn, Option.map_eq_some_iff] at hf
      obtain ⟨d, hd, rfl⟩ := hf
      obtain ⟨h1, h2⟩ := last_mem hd
      obtain ⟨c1, c2⟩ := hall d h1 (by rw [h2]; exact hor)
      exact Or.inl ⟨d, h1, c1, c2, rfl, h2.trans hp'⟩
  unfold Works tlMod
  cases h1 : crateName m t.tmpdir stabbyAbi with
  | some f => exact ⟨_, rfl, key _ false f rfl (Or.inl rfl) h1⟩
  | none =>
    cases h2 : crateName m t.tmpdir stabby with
    | some f => exact ⟨_, rfl, key _ true f rfl (Or.inr rfl) h2⟩
    | none =>
      exfalso
      unfold crateName at h1 h2
      rcases hone with h | h | ⟨d, hd, h⟩
      · rw [if_pos h] at h1; cases h1
      · rw [if_pos h] at h2; cases h2
      · have none_of : ∀ p, m.name ≠ p → (((m.deps.filter fun d => d.pkg = p).getLast?).map fun d => Found.name (sanitize d.key)) = none → d.pkg ≠ p := by
          intro p _ hnone he
          rw [Option.map_eq_none_iff, List.getLast?_eq_none_iff, List.filter_eq_nil_iff] at hnone
          exact hnone d hd (by simp [he])
        rcases h with h | h
        · by_cases hn : m.name = stabbyAbi
          · rw [if_pos hn] at h1; cases h1
          · rw [if_neg hn] at h1; exact none_of _ hn h1 h
        · by_cases hn : m.name = stabby
          · rw [if_pos hn] at h2; cases h2
          · rw [if_neg hn] at h2; exact none_of _ hn h2 h

/-- C109: without any of them, the macros refuse to expand. -/
theorem C109_refuses (m : Manifest) (b : Bool) : tlMod m b = none ↔
    m.name ≠ "stabby-abi".toList ∧ m.name ≠ "stabby".toList ∧ ∀ d ∈ m.deps, d.pkg ≠ "stabby-abi".toList ∧ d.pkg ≠ "stabby".toList := by
  rw [← names.1, ← names.2]
  have one : ∀ p, crateName m b p = none ↔ m.name ≠ p ∧ ∀ d ∈ m.deps, d.pkg ≠ p := by
    intro p
    unfold crateName
    by_cases hn : m.name = p
    · rw [if_pos hn]; simp [hn]
    · rw [if_neg hn, Option.map_eq_none_iff, List.getLast?_eq_none_iff, List.filter_eq_nil_iff]; simp [hn]
  unfold tlMod
  have h1 := one stabbyAbi
  have h2 := one stabby
  cases e1 : crateName m b stabbyAbi with
  | some f =>
    rw [e1] at h1
    constructor
    · intro h; cases h
    · rintro ⟨a, _, c⟩; exact absurd (h1.2 ⟨a, fun d hd => (c d hd).1⟩) (by simp)
  | none =>
    rw [e1] at h1
    have h1' := h1.1 rfl
    simp only [Option.map_eq_none_iff, h2]
    constructor
    · rintro ⟨a, c⟩; exact ⟨h1'.1, a, fun d hd => ⟨h1'.2 d hd, c d hd⟩⟩
    · rintro ⟨_, a, c⟩; exact ⟨a, fun d hd => (c d hd).2⟩

/-- C109: stabby-abi itself goes before stabby, and the last entry before others. -/
theorem C109_chosen (m : Manifest) (b : Bool) (h1 : m.name ≠ "stabby-abi".toList) (pre post : List Dep) (d : Dep) (hd : m.deps = pre ++ d :: post)
    (hp : d.pkg = "stabby-abi".toList) (hpost : ∀ e ∈ post, e.pkg ≠ "stabby-abi".toList) : tlMod m b = some ⟨.name (sanitize d.key), false⟩ := by
  rw [← names.1] at *
  have : (m.deps.filter fun d => d.pkg = stabbyAbi).getLast? = some d := by
    have hf : post.filter (fun d => decide (d.pkg = stabbyAbi)) = [] := by
      rw [List.filter_eq_nil_iff]; intro e he; simp [hpost e he]
    rw [hd, List.filter_append, List.filter_cons_of_pos (by simp [hp]), hf]
    simp
  unfold tlMod crateName
  rw [if_neg h1, this]
  rfl

/-- C109 does not hold of packages with an entry for stabby-abi that is not passed (one of the other table, or optional), though they have stabby: generated code
names a crate that there is not. -/
theorem C109_entry_refuted (m : Manifest) (t : Target) (hn : m.name ≠ "stabby-abi".toList) (hn' : sanitize m.name ≠ "stabby_abi".toList)
    (d : Dep) (pre post : List Dep) (hd : m.deps = pre ++ d :: post) (hp : d.pkg = "stabby-abi".toList) (hk : d.key = "stabby-abi".toList)
    (hc : ¬ Counts t d) (hrest : ∀ e ∈ pre ++ post, sanitize e.key ≠ "stabby_abi".toList) (hpost : ∀ e ∈ post, e.pkg ≠ "stabby-abi".toList) : ¬ Works m t := by
  rintro ⟨p, h1, h2⟩
  rw [C109_chosen m _ hn pre post d hd hp hpost] at h1
  cases h1
  have hs : sanitize d.key = "stabby_abi".toList := by rw [hk]; decide +kernel
  rcases h2 with ⟨e, he, c1, c2, c3, _⟩ | ⟨_, c, _⟩
  · rw [hd] at he
    simp only [List.mem_append, List.mem_cons] at he
    rcases he with he | rfl | he
    · exact hrest e (by simp [he]) (c3.trans hs)
    · exact hc ⟨c1, c2⟩
    · exact hrest e (by simp [he]) (c3.trans hs)
  · exact hn' (c.symm.trans hs)

/-- The manifest of a plugin whose tests also use stabby-abi: the attributes in its library do not expand to code that compiles. -/
def plugin : Manifest := ⟨"plugin".toList, [⟨"stabby".toList, none, false, true⟩, ⟨"stabby-abi".toList, none, true, true⟩]⟩
example : ¬ Works plugin .lib :=
  C109_entry_refuted plugin .lib (by decide +kernel) (by decide +kernel) ⟨"stabby-abi".toList, none, true, true⟩ [⟨"stabby".toList, none, false, true⟩] [] rfl rfl rfl
    (by simp [Counts, Target.dev]) (by intro e he; simp at he; subst he; decide +kernel) (by simp)
/-- And its unit tests do. -/
example : Works plugin .unitTests :=
  C109_works_partial _ _ (fun _ => Or.inl rfl) (fun d hd _ => by
    simp only [plugin, List.mem_cons, List.not_mem_nil, or_false] at hd
    rcases hd with rfl | rfl <;> exact ⟨rfl, fun _ => rfl⟩) (Or.inr (Or.inr ⟨_, List.mem_cons_self, Or.inr rfl⟩))

/-- C109 does not hold of examples and documentation tests of stabby-abi either: there, `crate` is another crate. -/
theorem C109_examples_refuted (m : Manifest) (h : m.name = "stabby-abi".toList) : ¬ Works m .example := by
  rintro ⟨p, h1, h2⟩
  rw [← names.1] at h
  have : tlMod m false = some ⟨.itself, false⟩ := by simp [tlMod, crateName, h]
  rw [show Target.tmpdir .example = false from rfl, this] at h1
  cases h1
  exact absurd h2.1 (by decide)

/-- The packages of the repository: stabby (stabby/Cargo.toml:37-48) in its library and benches, its examples, stabby-abi. -/
def theStabby : Manifest := ⟨"stabby".toList, [⟨"stabby-abi".toList, none, false, true⟩, ⟨"stabby-abi".toList, none, true, true⟩]⟩
example : tlMod theStabby false = some ⟨.name "stabby_abi".toList, false⟩ ∧ tlMod theStabby true = some ⟨.name "stabby_abi".toList, false⟩ ∧
    tlMod ⟨"stabby-abi".toList, []⟩ false = some ⟨.itself, false⟩ ∧
    tlMod ⟨"libloading-example".toList, [⟨"stabby".toList, none, false, true⟩]⟩ false = some ⟨.name "stabby".toList, true⟩ ∧
    tlMod ⟨"x".toList, [⟨"my-stabby".toList, some "stabby".toList, false, true⟩]⟩ false = some ⟨.name "my_stabby".toList, true⟩ := by decide +kernel

end Verif.Props.Root
