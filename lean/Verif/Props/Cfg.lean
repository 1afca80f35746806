import Verif.Build.Cfg
/-! C101: configurations build, and options do what they are documented to do. -/
namespace Verif.Props.Cfg
open Verif.Build

/-! ## Specification -/

/-- The settings of an option. -/
def settings (e : Env) (name : String) : List (Option String) := (e.options.filter fun p => p.1 == name).map Prod.snd

/-- The options are given at most once, with a value that build.rs declares (stabby-abi/build.rs:118-127); "none()" there is the option without a value. -/
structure Declared (e : Env) : Prop where
  alloc : settings e "stabby_default_alloc" ∈ [[], [some "RustAlloc"], [some "LibcAlloc"], [some "disabled"]]
  wakers : settings e "stabby_unsafe_wakers" ∈ [[], [none], [some "true"], [some "false"]]
  vtables : settings e "stabby_vtables" ∈ [[], [none], [some "vec"], [some "btree"], [some "no_alloc"]]

/-- A feature is enabled. -/
def feature (e : Env) (name : String) : Prop := ("feature", some name) ∈ e.options
/-- The target is `wasm32`. -/
def wasm (e : Env) : Prop := ("target_arch", some "wasm32") ∈ e.options

/-- The compiler has no errors to report. -/
def Builds (e : Env) : Prop := errors (build e) = []

/-! ## Evaluation -/

theorem contains_of_settings (e : Env) (name : String) (l : List (Option String)) (h : settings e name = l) (v : Option String) :
    e.options.contains (name, v) = l.contains v := by
  rw [Bool.eq_iff_iff, List.contains_iff_mem, List.contains_iff_mem, ← h, settings, List.mem_map]
  constructor
  · intro hm; exact ⟨(name, v), List.mem_filter.2 ⟨hm, by simp⟩, rfl⟩
  · rintro ⟨⟨n, w⟩, hm, hw⟩
    have := (List.mem_filter.1 hm).2
    simp only [beq_iff_eq] at this hw
    subst this; subst hw
    exact (List.mem_filter.1 hm).1

theorem cargoCfg_of_settings (e : Env) (name : String) : cargoCfg e.options name = !(settings e name).isEmpty := by
  rw [cargoCfg, settings]
  induction e.options with
  | nil => rfl
  | cons p o ih =>
    simp only [List.any_cons, List.filter_cons]
    cases h : p.1 == name
    · simpa using ih
    · simp

/-- The allocator `build.rs` sees to. -/
def chosen (e : Env) : List (Option String) :=
  if settings e "stabby_default_alloc" = [] then
    if e.options.contains ("feature", some "alloc-rs") then [some "RustAlloc"]
    else if e.options.contains ("feature", some "libc") then [some "LibcAlloc"]
    else [some "disabled"]
  else settings e "stabby_default_alloc"

theorem settings_cons (e : Env) (p : String × Option String) (name : String) :
    settings { e with options := p :: e.options } name = if p.1 == name then p.2 :: settings e name else settings e name := by
  simp only [settings, List.filter_cons]
  split <;> rfl

theorem settings_build (e : Env) : settings (build e) "stabby_default_alloc" = chosen e := by
  unfold build chosen
  rw [cargoCfg_of_settings]
  by_cases h : settings e "stabby_default_alloc" = []
  · rw [if_pos h, h, if_neg (by decide)]
    split
    · rw [settings_cons, h]; rfl
    · split
      · rw [settings_cons, h]; rfl
      · rw [settings_cons, h]; rfl
  · rw [if_neg h, if_pos]
    cases hs : settings e "stabby_default_alloc" with
    | nil => exact absurd hs h
    | cons _ _ => rfl

theorem settings_build_other (e : Env) (name : String) (hn : name ≠ "stabby_default_alloc") : settings (build e) name = settings e name := by
  have hb : ("stabby_default_alloc" == name) = false := by simpa using fun h => hn h.symm
  unfold build
  split
  · rfl
  · split
    · rw [settings_cons, hb]; rfl
    · split
      · rw [settings_cons, hb]; rfl
      · rw [settings_cons, hb]; rfl

theorem contains_build (e : Env) (p : String × Option String) (hn : p.1 ≠ "stabby_default_alloc") :
    (build e).options.contains p = e.options.contains p := by
  obtain ⟨n, v⟩ := p
  rw [contains_of_settings (build e) n _ (settings_build_other e n hn), ← contains_of_settings e n _ rfl]

theorem build_nightly (e : Env) : (build e).nightly = e.nightly := by unfold build; repeat' split
                                                                      all_goals rfl
theorem build_minor (e : Env) : (build e).minor = e.minor := by unfold build; repeat' split
                                                                all_goals rfl

/-- The options the items look at, as eleven booleans: `a`llocator (rust, libc, disabled), `w`akers (bare, true, false), `v`tables (bare, vec, btree), features and target. -/
structure Seen (e : Env) (aR aL aD w0 wT wF v0 vV vB fA fL tW : Bool) : Prop where
  aR : e.options.contains ("stabby_default_alloc", some "RustAlloc") = aR
  aL : e.options.contains ("stabby_default_alloc", some "LibcAlloc") = aL
  aD : e.options.contains ("stabby_default_alloc", some "disabled") = aD
  w0 : e.options.contains ("stabby_unsafe_wakers", none) = w0
  wT : e.options.contains ("stabby_unsafe_wakers", some "true") = wT
  wF : e.options.contains ("stabby_unsafe_wakers", some "false") = wF
  v0 : e.options.contains ("stabby_vtables", none) = v0
  vV : e.options.contains ("stabby_vtables", some "vec") = vV
  vB : e.options.contains ("stabby_vtables", some "btree") = vB
  fA : e.options.contains ("feature", some "alloc-rs") = fA
  fL : e.options.contains ("feature", some "libc") = fL
  tW : e.options.contains ("target_arch", some "wasm32") = tW

theorem always_eval (o : Options) : always.eval o = true := by
  simp only [always, Pred.eval]; cases o.contains ("", none) <;> rfl

/-- What is compiled, in terms of what is seen. -/
theorem compiled_eq {e : Env} {aR aL aD w0 wT wF v0 vV vB fA fL tW : Bool} (s : Seen e aR aL aD w0 wT wF v0 vV vB fA fL tW) :
    compiled e wakers = (if wT then [Waker.direct] else []) ++ (if !w0 || wF then [.shims] else []) ∧
    compiled e defaultAllocs = (if aR then [Alloc.rust] else []) ++ (if aL then [.libc] else []) ++ (if aD then [.infallible] else []) ∧
    compiled e allocs = (if fL && !tW then [Alloc.libc] else []) ++ (if fA then [.rust] else []) ++ [.infallible] ∧
    compiled e registries = (if (!aD && vV) && stableSince178 e.nightly e.minor then [Registry.vec] else []) ++
      (if (!aD && (vB || !v0)) && stableSince178 e.nightly e.minor then [.btree] else []) ++
      (if (!aD && vB) && e.nightly then [.btree] else []) ∧
    compiled e constructors = (if e.nightly then [Constructor.promoted] else []) ++ (if decide (e.minor < 78) then [.required] else []) ++
      (if (!aD && (vV || (vB || !v0))) && stableSince178 e.nightly e.minor then [.registry] else []) ++
      (if !(!aD && (vV || (vB || !v0))) && stableSince178 e.nightly e.minor then [.refused] else []) := by
  have f2 : ∀ {α : Type} (a b : Bool) (x y : α) (p q : Pred) (r t : Bool → Nat → Bool),
      (p.eval e.options && r e.nightly e.minor) = a → (q.eval e.options && t e.nightly e.minor) = b →
      compiled e [⟨x, p, r⟩, ⟨y, q, t⟩] = (if a then [x] else []) ++ (if b then [y] else []) := by
    intro α a b x y p q r t ha hb
    simp only [compiled, List.filter_cons, ha, hb, List.filter_nil]
    cases a <;> cases b <;> rfl
  have f3 : ∀ {α : Type} (a b c : Bool) (x y z : α) (p q o : Pred) (r t w : Bool → Nat → Bool),
      (p.eval e.options && r e.nightly e.minor) = a → (q.eval e.options && t e.nightly e.minor) = b → (o.eval e.options && w e.nightly e.minor) = c →
      compiled e [⟨x, p, r⟩, ⟨y, q, t⟩, ⟨z, o, w⟩] = (if a then [x] else []) ++ (if b then [y] else []) ++ (if c then [z] else []) := by
    intro α a b c x y z p q o r t w ha hb hc
    simp only [compiled, List.filter_cons, ha, hb, hc, List.filter_nil]
    cases a <;> cases b <;> cases c <;> rfl
  refine ⟨?_, ?_, ?_, ?_, ?_⟩
  · exact f2 _ _ _ _ _ _ _ _ (by simp only [Pred.eval, s.wT, anyRustc, Bool.and_true]) (by simp only [Pred.eval, s.w0, s.wF, anyRustc, Bool.and_true])
  · exact f3 _ _ _ _ _ _ _ _ _ _ _ _ (by simp only [Pred.eval, s.aR, anyRustc, Bool.and_true]) (by simp only [Pred.eval, s.aL, anyRustc, Bool.and_true])
      (by simp only [Pred.eval, s.aD, anyRustc, Bool.and_true])
  · exact f3 (fL && !tW) fA true _ _ _ _ _ _ _ _ _ (by simp only [Pred.eval, s.fL, s.tW, anyRustc, Bool.and_true])
      (by simp only [Pred.eval, s.fA, anyRustc, Bool.and_true]) (by rw [always_eval]; rfl)
  · exact f3 _ _ _ _ _ _ _ _ _ _ _ _ (by simp only [Pred.eval, hasAlloc, s.aD, s.vV]) (by simp only [Pred.eval, hasAlloc, s.aD, s.vB, s.v0])
      (by simp only [Pred.eval, hasAlloc, s.aD, s.vB, onNightly])
  · have hr : registryCfg.eval e.options = (!aD && (vV || (vB || !v0))) := by
      simp only [registryCfg, hasAlloc, Pred.eval, s.aD, s.vV, s.vB, s.v0]
    have hn : (Pred.not registryCfg).eval e.options = !(!aD && (vV || (vB || !v0))) := by
      simp only [Pred.eval, hr]
    rw [show constructors = [⟨.promoted, always, onNightly⟩, ⟨.required, always, before178⟩, ⟨.registry, registryCfg, stableSince178⟩,
      ⟨.refused, .not registryCfg, stableSince178⟩] from rfl]
    simp only [compiled, List.filter_cons, List.filter_nil, always_eval, hr, hn, onNightly, before178, Bool.true_and]
    generalize stableSince178 e.nightly e.minor = st
    generalize e.nightly = ni
    generalize decide (e.minor < 78) = mi
    generalize (!aD && (vV || (vB || !v0))) = rg
    cases ni <;> cases mi <;> cases st <;> cases rg <;> rfl

/-- The number of errors from what is seen (used in proofs only). -/
def verdict (aR aL aD w0 wT wF v0 vV vB fA fL tW ni mi : Bool) : Bool :=
  let st := !ni && !mi
  -- one waker
  (wT != (!w0 || wF)) &&
  -- one allocator
  ((aR && !aL && !aD) || (!aR && aL && !aD) || (!aR && !aL && aD)) &&
  (!aR || fA) && (!aL || (fL && !tW)) && !((!w0 || wF) && aD) &&
  !(ni && mi) && (!st || (!aD && (vV || (vB || !v0)))) &&
  (!st || !(vV && (vB || !v0)))

theorem errors_iff {e : Env} {aR aL aD w0 wT wF v0 vV vB fA fL tW : Bool} (s : Seen e aR aL aD w0 wT wF v0 vV vB fA fL tW) :
    errors e = [] ↔ verdict aR aL aD w0 wT wF v0 vV vB fA fL tW e.nightly (decide (e.minor < 78)) = true := by
  obtain ⟨h1, h2, h3, h4, h5⟩ := compiled_eq s
  have hst : stableSince178 e.nightly e.minor = (!e.nightly && !decide (e.minor < 78)) := by
    rw [stableSince178]
    congr 1
    rw [Bool.eq_iff_iff]; simp
  simp only [errors, h1, h2, h3, h4, h5, hst]
  generalize e.nightly = ni
  generalize decide (e.minor < 78) = mi
  clear s h1 h2 h3 h4 h5 hst
  simp only [List.append_eq_nil_iff]
  revert aR aL aD w0 wT wF v0 vV vB fA fL tW ni mi
  decide +kernel

/-! ## Theorems -/

/-- The allocator that is asked for, or the first whose feature is enabled, is there. -/
def AllocThere (e : Env) : Prop :=
  (settings e "stabby_default_alloc" = [] ∧ (feature e "alloc-rs" ∨ feature e "libc" ∧ ¬ wasm e)) ∨
  (settings e "stabby_default_alloc" = [some "RustAlloc"] ∧ feature e "alloc-rs") ∨
  (settings e "stabby_default_alloc" = [some "LibcAlloc"] ∧ feature e "libc" ∧ ¬ wasm e)

theorem seen (e : Env) (ls la lv : List (Option String)) (ha : chosen e = la) (hw : settings e "stabby_unsafe_wakers" = ls)
    (hv : settings e "stabby_vtables" = lv) :
    Seen (build e) (la.contains (some "RustAlloc")) (la.contains (some "LibcAlloc")) (la.contains (some "disabled"))
      (ls.contains none) (ls.contains (some "true")) (ls.contains (some "false"))
      (lv.contains none) (lv.contains (some "vec")) (lv.contains (some "btree"))
      (e.options.contains ("feature", some "alloc-rs")) (e.options.contains ("feature", some "libc"))
      (e.options.contains ("target_arch", some "wasm32")) := by
  have a := settings_build e
  rw [ha] at a
  have w := settings_build_other e "stabby_unsafe_wakers" (by decide)
  rw [hw] at w
  have v := settings_build_other e "stabby_vtables" (by decide)
  rw [hv] at v
  exact ⟨contains_of_settings _ _ _ a _, contains_of_settings _ _ _ a _, contains_of_settings _ _ _ a _,
    contains_of_settings _ _ _ w _, contains_of_settings _ _ _ w _, contains_of_settings _ _ _ w _,
    contains_of_settings _ _ _ v _, contains_of_settings _ _ _ v _, contains_of_settings _ _ _ v _,
    contains_build _ _ (by decide), contains_build _ _ (by decide), contains_build _ _ (by decide)⟩

theorem feature_iff (e : Env) (n : String) : feature e n ↔ e.options.contains ("feature", some n) = true := by
  rw [feature, List.contains_iff_mem]
theorem wasm_iff (e : Env) : wasm e ↔ e.options.contains ("target_arch", some "wasm32") = true := by
  rw [wasm, List.contains_iff_mem]

theorem builds_verdict (e : Env) (ls la lv : List (Option String)) (ha : chosen e = la) (hw : settings e "stabby_unsafe_wakers" = ls)
    (hv : settings e "stabby_vtables" = lv) : Builds e ↔
    verdict (la.contains (some "RustAlloc")) (la.contains (some "LibcAlloc")) (la.contains (some "disabled"))
      (ls.contains none) (ls.contains (some "true")) (ls.contains (some "false"))
      (lv.contains none) (lv.contains (some "vec")) (lv.contains (some "btree"))
      (e.options.contains ("feature", some "alloc-rs")) (e.options.contains ("feature", some "libc"))
      (e.options.contains ("target_arch", some "wasm32")) e.nightly (decide (e.minor < 78)) = true := by
  have := errors_iff (seen e ls la lv ha hw hv)
  rw [build_nightly, build_minor] at this
  exact this

/-- The allocator's part of the verdict. -/
def allocOk (la : List (Option String)) (fA fL tW : Bool) : Bool :=
  (la == [some "RustAlloc"] && fA) || (la == [some "LibcAlloc"] && (fL && !tW))

theorem verdict_eq (la ls lv : List (Option String)) (ha : la ∈ [[some "RustAlloc"], [some "LibcAlloc"], [some "disabled"]])
    (hw : ls ∈ [[], [none], [some "true"], [some "false"]]) (hv : lv ∈ [[], [none], [some "vec"], [some "btree"], [some "no_alloc"]])
    (fA fL tW ni mi : Bool) :
    verdict (la.contains (some "RustAlloc")) (la.contains (some "LibcAlloc")) (la.contains (some "disabled"))
      (ls.contains none) (ls.contains (some "true")) (ls.contains (some "false"))
      (lv.contains none) (lv.contains (some "vec")) (lv.contains (some "btree")) fA fL tW ni mi =
    (allocOk la fA fL tW && (ls == [] || ls == [some "false"]) && !(ni && mi) &&
      (ni || mi || !(lv == [none] || lv == [some "vec"]))) := by
  revert fA fL tW ni mi
  simp only [List.mem_cons, List.not_mem_nil, or_false] at ha hw hv
  rcases ha with rfl | rfl | rfl <;> rcases hw with rfl | rfl | rfl | rfl <;> rcases hv with rfl | rfl | rfl | rfl | rfl <;> decide +kernel

theorem chosen_mem (e : Env) (hd : Declared e) : chosen e ∈ [[some "RustAlloc"], [some "LibcAlloc"], [some "disabled"]] := by
  have h := hd.alloc
  unfold chosen
  split
  · split
    · simp
    · split <;> simp
  · rename_i hne
    simp only [List.mem_cons, List.not_mem_nil, or_false] at h
    rcases h with h | h | h | h
    · exact absurd h hne
    · rw [h]; simp
    · rw [h]; simp
    · rw [h]; simp

theorem allocOk_iff (e : Env) (hd : Declared e) :
    allocOk (chosen e) (e.options.contains ("feature", some "alloc-rs")) (e.options.contains ("feature", some "libc"))
      (e.options.contains ("target_arch", some "wasm32")) = true ↔ AllocThere e := by
  have h := hd.alloc
  simp only [AllocThere, feature_iff, wasm_iff]
  simp only [List.mem_cons, List.not_mem_nil, or_false] at h
  unfold chosen
  generalize e.options.contains ("feature", some "alloc-rs") = fA
  generalize e.options.contains ("feature", some "libc") = fL
  generalize e.options.contains ("target_arch", some "wasm32") = tW
  generalize settings e "stabby_default_alloc" = l at h
  revert fA fL tW
  rcases h with rfl | rfl | rfl | rfl <;> decide +kernel

/-- C101: which of the declared configurations build.  The compiler must not be a nightly before 1.78; the wakers must not be set to `"true"` (or to nothing); the allocator must
be there, and must not be disabled; on stable compilers since 1.78 the vtables must not be set to `"vec"` (or to nothing). -/
theorem C101_builds_iff (e : Env) (hd : Declared e) : Builds e ↔
    AllocThere e ∧
    (settings e "stabby_unsafe_wakers" = [] ∨ settings e "stabby_unsafe_wakers" = [some "false"]) ∧
    (e.nightly = true → 78 ≤ e.minor) ∧
    (e.nightly = false → 78 ≤ e.minor → settings e "stabby_vtables" ≠ [none] ∧ settings e "stabby_vtables" ≠ [some "vec"]) := by
  rw [builds_verdict e _ _ _ rfl rfl rfl, verdict_eq _ _ _ (chosen_mem e hd) hd.wakers hd.vtables, ← allocOk_iff e hd]
  simp only [Bool.and_eq_true, and_assoc]
  refine and_congr Iff.rfl (and_congr ?_ (and_congr ?_ ?_))
  · simp only [Bool.or_eq_true, beq_iff_eq]
  · cases e.nightly <;> simp
  · cases e.nightly
    · simp only [Bool.false_or, Bool.or_eq_true, decide_eq_true_eq, Bool.not_eq_true', Bool.or_eq_false_iff, beq_eq_false_iff_ne, true_implies]
      by_cases h : e.minor < 78
      · exact ⟨fun _ h' => absurd h (by omega), fun _ => .inl h⟩
      · exact ⟨fun h' _ => h'.resolve_left h, fun h' => .inr (h' (by omega))⟩
    · simp

/-- C101, the part that holds: without options, with the default features, on a stable compiler since 1.78 the crate builds with `RustAlloc`, wakers with shims and
a registry which is a B-tree. -/
theorem C101_default_partial (e : Env) (h1 : settings e "stabby_default_alloc" = []) (h2 : settings e "stabby_unsafe_wakers" = [])
    (h3 : settings e "stabby_vtables" = []) (hf : feature e "alloc-rs") (hn : e.nightly = false) (hm : 78 ≤ e.minor) :
    Builds e ∧ compiled (build e) defaultAllocs = [.rust] ∧ compiled (build e) Build.wakers = [.shims] ∧
    compiled (build e) registries = [.btree] ∧ compiled (build e) constructors = [.registry] := by
  have hd : Declared e := ⟨by rw [h1]; simp, by rw [h2]; simp, by rw [h3]; simp⟩
  have hc : chosen e = [some "RustAlloc"] := by
    unfold chosen
    rw [if_pos h1, if_pos ((feature_iff _ _).1 hf)]
  refine ⟨(C101_builds_iff e hd).2 ⟨.inl ⟨h1, .inl hf⟩, .inl h2, by simp [hn], fun _ _ => by rw [h3]; simp⟩, ?_⟩
  obtain ⟨a, b, _, c, d⟩ := compiled_eq (seen e _ _ _ hc h2 h3)
  have hst : stableSince178 (build e).nightly (build e).minor = true := by
    rw [build_nightly, build_minor, hn]; simp [stableSince178, hm]
  have hlt : decide ((build e).minor < 78) = false := by rw [build_minor]; simp; omega
  rw [hst, build_nightly, hn] at c d
  rw [hlt] at d
  exact ⟨b, a, c, d⟩

/-- C101 fails for the wakers: with the documented `--cfg stabby_unsafe_wakers="true"`, whatever else is set, both modules are compiled, since `not(stabby_unsafe_wakers)` holds. -/
theorem C101_unsafe_wakers_refuted (e : Env) (h : settings e "stabby_unsafe_wakers" = [some "true"]) :
    compiled (build e) Build.wakers = [.direct, .shims] ∧ .definedTwice "stable_waker" ∈ errors (build e) := by
  obtain ⟨a, _⟩ := compiled_eq (seen e _ _ _ rfl h rfl)
  have a' : compiled (build e) Build.wakers = [.direct, .shims] := a
  refine ⟨a', ?_⟩
  unfold errors
  rw [a']
  simp [once]

/-- C101 fails for the registries: with `--cfg stabby_vtables="vec"` on a stable compiler since 1.78 and an allocator, both registries are compiled. -/
theorem C101_vec_refuted (e : Env) (h : settings e "stabby_vtables" = [some "vec"]) (hn : e.nightly = false) (hm : 78 ≤ e.minor)
    (ha : some "disabled" ∉ chosen e) :
    compiled (build e) registries = [.vec, .btree] ∧ .definedTwice "VTABLES" ∈ errors (build e) := by
  obtain ⟨_, _, _, c, d⟩ := compiled_eq (seen e _ _ _ rfl rfl h)
  have hst : stableSince178 (build e).nightly (build e).minor = true := by
    rw [build_nightly, build_minor, hn]; simp [stableSince178, hm]
  have hD : (chosen e).contains (some "disabled") = false := by
    rw [Bool.eq_false_iff, ne_eq, List.contains_iff_mem]; exact ha
  rw [hst, hD, build_nightly, hn] at c
  have c' : compiled (build e) registries = [.vec, .btree] := c
  refine ⟨c', ?_⟩
  unfold errors
  rw [c']
  have : (if (compiled (build e) constructors).contains Constructor.registry = true then once "VTABLES" [Registry.vec, .btree]
      else atMostOnce "VTABLES" [Registry.vec, .btree]) = [Err.definedTwice "VTABLES"] := by split <;> rfl
  rw [this]
  simp

/-- C101 fails for vtables without allocations: with `--cfg stabby_vtables="no_alloc"`, as without the option, vtables are interned in an allocated B-tree. -/
theorem C101_no_alloc_refuted (e : Env) (h : settings e "stabby_vtables" = [some "no_alloc"]) (hn : e.nightly = false) (hm : 78 ≤ e.minor)
    (ha : some "disabled" ∉ chosen e) :
    compiled (build e) constructors = [.registry] ∧ compiled (build e) registries = [.btree] := by
  obtain ⟨_, _, _, c, d⟩ := compiled_eq (seen e _ _ _ rfl rfl h)
  have hst : stableSince178 (build e).nightly (build e).minor = true := by
    rw [build_nightly, build_minor, hn]; simp [stableSince178, hm]
  have hD : (chosen e).contains (some "disabled") = false := by
    rw [Bool.eq_false_iff, ne_eq, List.contains_iff_mem]; exact ha
  have hlt : decide ((build e).minor < 78) = false := by rw [build_minor]; simp; omega
  rw [hst, hD, build_nightly, hn] at c d
  rw [hlt] at d
  exact ⟨d, c⟩

/-- C101 fails without allocator: no declared configuration without an allocator builds. -/
theorem C101_disabled_refuted (e : Env) (hd : Declared e)
    (h : settings e "stabby_default_alloc" = [some "disabled"] ∨
      settings e "stabby_default_alloc" = [] ∧ ¬ feature e "alloc-rs" ∧ ¬ feature e "libc") : ¬ Builds e := by
  intro hb
  have ha := ((C101_builds_iff e hd).1 hb).1
  rcases ha with ⟨h0, h1⟩ | ⟨h0, _⟩ | ⟨h0, _⟩ <;> rcases h with h | ⟨h, h2, h3⟩
  · rw [h0] at h; simp at h
  · rcases h1 with h1 | h1
    · exact h2 h1
    · exact h3 h1.1
  all_goals rw [h0] at h; simp at h

/-- C101 fails on wasm32: feature `libc` alone selects an allocator that is not compiled there. -/
theorem C101_wasm_refuted (e : Env) (hs : settings e "stabby_default_alloc" = []) (hw : wasm e) (hl : feature e "libc") (ha : ¬ feature e "alloc-rs") :
    compiled (build e) defaultAllocs = [.libc] ∧ .undefined "allocator" ∈ errors (build e) := by
  have hA : e.options.contains ("feature", some "alloc-rs") = false := by
    rw [Bool.eq_false_iff, ne_eq, ← feature_iff]; exact ha
  have hc : chosen e = [some "LibcAlloc"] := by
    unfold chosen
    rw [if_pos hs, if_neg (by rw [hA]; simp), if_pos ((feature_iff _ _).1 hl)]
  obtain ⟨_, b, c, _⟩ := compiled_eq (seen e _ _ _ hc rfl rfl)
  have b' : compiled (build e) defaultAllocs = [.libc] := b
  rw [hA, (wasm_iff e).1 hw, (feature_iff _ _).1 hl] at c
  have c' : compiled (build e) allocs = [.infallible] := c
  refine ⟨b', ?_⟩
  unfold errors
  rw [b', c']
  simp [List.mem_append]

/-! ### Instances -/

/-- The defaults on a current stable compiler. -/
def dflt : Env := ⟨[("feature", some "std"), ("feature", some "alloc-rs"), ("target_arch", some "x86_64")], false, 85⟩
example : Builds dflt := by unfold Builds; decide +kernel
example : Declared dflt := ⟨by decide +kernel, by decide +kernel, by decide +kernel⟩
example : feature dflt "alloc-rs" ∧ settings dflt "stabby_vtables" = [] ∧ settings dflt "stabby_unsafe_wakers" = [] ∧
    settings dflt "stabby_default_alloc" = [] := ⟨by simp [feature, dflt], by decide +kernel, by decide +kernel, by decide +kernel⟩
/-- The defaults with unsafe wakers, with the registry as a vector, and without allocations. -/
example : errors (build { dflt with options := ("stabby_unsafe_wakers", some "true") :: dflt.options }) = [.definedTwice "stable_waker"] := by decide +kernel
example : errors (build { dflt with options := ("stabby_vtables", some "vec") :: dflt.options }) = [.definedTwice "VTABLES"] := by decide +kernel
example : errors (build { dflt with options := ("stabby_vtables", some "no_alloc") :: dflt.options }) = [] := by decide +kernel
/-- Without features; with `libc` on wasm32; on an old nightly. -/
example : errors (build ⟨[], false, 85⟩) = [.noDefault, .compileError] := by decide +kernel
example : errors (build ⟨[("feature", some "libc"), ("target_arch", some "wasm32")], false, 85⟩) = [.undefined "allocator"] := by decide +kernel
example : errors (build { dflt with nightly := true, minor := 77 }) = [.definedTwice "IConstConstructor"] := by decide +kernel

end Verif.Props.Cfg
