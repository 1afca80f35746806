import Verif.Macros.CanaryLemmas
/-!
# C50: canaries

`fromStr` is the parser of specifications, `canaries` the iteration of one, `exports`, `imports` and `getCanaried` the symbols that
are exported, linked and looked up.  A `Build` is what stabby-macros records about the build.
-/
namespace Verif.Props.Canary
open Verif.Macros.Canary

/-- The canaries that can be named, with the sets of bits they stand for. -/
def named : List (List Char × Nat) :=
  [("paranoid".toList, 0b111111), ("none".toList, 0), ("rustc".toList, 0b1), ("debug".toList, 0b100), ("target".toList, 0b10000),
   ("host".toList, 0b100000)]

/-- A name between spaces. -/
def padded (r : Nat × (List Char × Nat) × Nat) : List Char := List.replicate r.1 ' ' ++ (r.2.1.1 ++ List.replicate r.2.2 ' ')

theorem named_array : ∀ x ∈ named, x ∈ ARRAY ∧ lookup x.1 ARRAY = some x.2 ∧ ' ' ∉ x.1 ∧ ',' ∉ x.1 ∧
    ∀ c ∈ x.1, 'a' ≤ c ∧ c ≤ 'z' := by decide
theorem array_named : ∀ x ∈ ARRAY, x ∈ named ∨ '_' ∈ x.1 := by decide

theorem testBit_foldl (vs : List Nat) (m i : Nat) :
    (vs.foldl (· ||| ·) m).testBit i = (m.testBit i || vs.any (·.testBit i)) := by
  induction vs generalizing m with
  | nil => simp
  | cons v vs ih => simp [ih, Bool.or_assoc]

/-- A specification is accepted exactly if it is empty (then it is everything) or a list of known names with spaces around them,
separated by commas; it selects exactly what the names select together.  `alphabetic` is only assumed to hold for lower case letters
and not for the underscore.  What is missing: `opt_level` and `num_jobs`, see `C50_names_refuted`. -/
theorem C50_parse_partial (alphabetic : Char → Bool) (hl : ∀ c, 'a' ≤ c → c ≤ 'z' → alphabetic c = true)
    (hu : alphabetic '_' = false) (s : List Char) (m : Nat) :
    fromStr alphabetic s = some m ↔
      (s = [] ∧ m = 0b111111) ∨
      (s ≠ [] ∧ ∃ rs : List (Nat × (List Char × Nat) × Nat), rs ≠ [] ∧ (∀ r ∈ rs, r.2.1 ∈ named) ∧ s = join (rs.map padded) ∧
        ∀ i, m.testBit i = rs.any (fun r => r.2.1.2.testBit i)) := by
  unfold fromStr
  cases hs : s with
  | nil =>
    simp only [List.isEmpty_nil, if_true, Option.some.injEq, PARANOID, ne_eq, not_true, false_and, or_false, true_and]
    exact eq_comm
  | cons c0 s0 =>
    rw [← hs]
    have hne : s ≠ [] := by rw [hs]; exact nofun
    simp only [hne, false_and, false_or, ne_eq, not_false_eq_true, true_and, List.isEmpty_iff, if_false]
    constructor
    · intro h
      split at h
      · cases h
      · rename_i hchk
        have hchk' : ∀ c ∈ s, c ≠ '_' := by
          intro c hc e
          apply hchk
          rw [List.any_eq_true]
          exact ⟨c, hc, by subst e; simp [hu]⟩
        obtain ⟨vs, h1, rfl⟩ := (requests_spec _ _ _).mp h
        have piece : ∀ p ∈ split s, ∀ c ∈ p, c ∈ s := by
          intro p hp c hc
          have aux : ∀ ps : List (List Char), p ∈ ps → c ∈ join ps := by
            intro ps
            induction ps with
            | nil => exact nofun
            | cons q ps ih =>
              intro hm
              cases ps with
              | nil => simp only [List.mem_singleton] at hm; subst hm; exact hc
              | cons q' ps =>
                rw [join_cons (by exact nofun)]
                rcases List.mem_cons.mp hm with rfl | hm
                · exact List.mem_append_left _ hc
                · exact List.mem_append_right _ (List.mem_cons_of_mem _ (ih hm))
          have := aux (split s) hp
          rwa [join_split] at this
        have build : ∀ (ps : List (List Char)) (vs : List Nat), (∀ p ∈ ps, ∀ c ∈ p, c ≠ '_') →
            ps.map (fun r => lookup (trim r) ARRAY) = vs.map some →
            ∃ rs : List (Nat × (List Char × Nat) × Nat), (∀ r ∈ rs, r.2.1 ∈ named) ∧ rs.map padded = ps ∧ rs.map (·.2.1.2) = vs := by
          intro ps
          induction ps with
          | nil =>
            intro vs _ h
            cases vs with
            | nil => exact ⟨[], by exact nofun, rfl, rfl⟩
            | cons v vs => cases h
          | cons p ps ih =>
            intro vs hp h
            cases vs with
            | nil => cases h
            | cons v vs =>
              simp only [List.map_cons, List.cons.injEq] at h
              obtain ⟨rs, r1, r2, r3⟩ := ih vs (fun q hq => hp q (List.mem_cons_of_mem _ hq)) h.2
              obtain ⟨a, b, hab⟩ := trim_spec p
              have hm := lookup_mem h.1
              have hn : (trim p, v) ∈ named := by
                rcases array_named _ hm with h | h
                · exact h
                · refine absurd rfl (hp p List.mem_cons_self '_' ?_)
                  rw [hab]
                  exact List.mem_append_right _ (List.mem_append_left _ h)
              refine ⟨(a, (trim p, v), b) :: rs, ?_, ?_, ?_⟩
              · intro r hr
                rcases List.mem_cons.mp hr with rfl | hr
                · exact hn
                · exact r1 r hr
              · rw [List.map_cons, r2]; exact congrArg (· :: ps) hab.symm
              · rw [List.map_cons, r3]
        obtain ⟨rs, r1, r2, r3⟩ := build (split s) vs (fun p hp c hc => hchk' c (piece p hp c hc)) h1
        refine ⟨rs, ?_, r1, ?_, fun i => ?_⟩
        · rintro rfl; exact split_ne_nil s r2.symm
        · rw [r2, join_split]
        · rw [testBit_foldl, ← r3]
          simp [NONE, List.any_map, Function.comp_def]
    · rintro ⟨rs, h1, h2, h3, h4⟩
      have hcomma : ∀ p ∈ rs.map padded, ',' ∉ p := by
        intro p hp
        obtain ⟨r, hr, rfl⟩ := List.mem_map.mp hp
        intro hm
        rcases List.mem_append.mp hm with hm | hm
        · have := List.eq_of_mem_replicate hm; cases this
        · rcases List.mem_append.mp hm with hm | hm
          · exact (named_array _ (h2 r hr)).2.2.2.1 hm
          · have := List.eq_of_mem_replicate hm; cases this
      have hsplit : split s = rs.map padded := by rw [h3, split_join (by simpa using h1) hcomma]
      have hok : ∀ c ∈ s, alphabetic c = true ∨ c = ' ' ∨ c = ',' := by
        have aux : ∀ (ps : List (List Char)) c, c ∈ join ps → c = ',' ∨ ∃ p ∈ ps, c ∈ p := by
          intro ps
          induction ps with
          | nil => exact nofun
          | cons q ps ih =>
            intro c hc
            cases ps with
            | nil => exact Or.inr ⟨q, List.mem_cons_self, hc⟩
            | cons q' ps =>
              rw [join_cons (by exact nofun)] at hc
              rcases List.mem_append.mp hc with hc | hc
              · exact Or.inr ⟨q, List.mem_cons_self, hc⟩
              · rcases List.mem_cons.mp hc with rfl | hc
                · exact Or.inl rfl
                · rcases ih c hc with h | ⟨p, hp, hc⟩
                  · exact Or.inl h
                  · exact Or.inr ⟨p, List.mem_cons_of_mem _ hp, hc⟩
        intro c hc
        rw [h3] at hc
        rcases aux _ c hc with h | ⟨p, hp, hc⟩
        · exact Or.inr (Or.inr h)
        · obtain ⟨r, hr, rfl⟩ := List.mem_map.mp hp
          rcases List.mem_append.mp hc with hm | hm
          · exact Or.inr (Or.inl (List.eq_of_mem_replicate hm))
          · rcases List.mem_append.mp hm with hm | hm
            · have := (named_array _ (h2 r hr)).2.2.2.2 c hm
              exact Or.inl (hl c this.1 this.2)
            · exact Or.inr (Or.inl (List.eq_of_mem_replicate hm))
      have hany : s.any (fun c => !(alphabetic c || c == ' ' || c == ',')) = false := by
        rw [List.any_eq_false]
        intro c hc
        rcases hok c hc with h | h | h <;> simp [h]
      rw [hany, if_neg Bool.false_ne_true, hsplit, requests_spec]
      refine ⟨rs.map (·.2.1.2), ?_, ?_⟩
      · rw [List.map_map, List.map_map]
        apply List.map_congr_left
        intro r hr
        have := named_array _ (h2 r hr)
        simp only [Function.comp_apply, padded]
        rw [trim_pad this.2.2.1, this.2.1]
      · apply Nat.eq_of_testBit_eq
        intro i
        rw [h4, testBit_foldl]
        simp [NONE, List.any_map, Function.comp_def]

/-- Two of the documented names are never accepted: the check of the characters does not let the underscore pass. -/
theorem C50_names_refuted (alphabetic : Char → Bool) (hu : alphabetic '_' = false) :
    ("opt_level".toList, OPT_LEVEL) ∈ ARRAY ∧ fromStr alphabetic "opt_level".toList = none ∧
    ("num_jobs".toList, NUM_JOBS) ∈ ARRAY ∧ fromStr alphabetic "num_jobs".toList = none := by
  refine ⟨by decide, ?_, by decide, ?_⟩
  · simp [fromStr, hu]
  · simp [fromStr, hu]

/-- What a specification selects is among the six canaries. -/
theorem C50_range (alphabetic : Char → Bool) (hl : ∀ c, 'a' ≤ c → c ≤ 'z' → alphabetic c = true)
    (hu : alphabetic '_' = false) (s : List Char) (m : Nat) (h : fromStr alphabetic s = some m) : m < 2 ^ 6 := by
  rcases (C50_parse_partial alphabetic hl hu s m).mp h with ⟨_, rfl⟩ | ⟨_, rs, _, h2, _, h4⟩
  · decide
  · apply Nat.lt_pow_two_of_testBit
    intro i hi
    rw [h4, List.any_eq_false]
    intro r hr
    have key : ∀ x ∈ named, x.2 < 2 ^ 6 := by decide
    have hlt := key _ (h2 r hr)
    rw [Nat.testBit_lt_two_pow (Nat.lt_of_lt_of_le hlt (Nat.pow_le_pow_right (by omega) hi))]
    exact Bool.false_ne_true

/-- Iteration yields each selected canary exactly once, in ascending order, and nothing else. -/
theorem C50_iterate (spec : Nat) (h : spec < 2 ^ 15) :
    ∃ l, canaries spec = some l ∧ l.Pairwise (· < ·) ∧ ∀ c, c ∈ l ↔ ∃ i, c = 2 ^ i ∧ spec.testBit i = true := by
  obtain ⟨l, e, hp, h1, h2⟩ := iter_spec (k := 16) (shift := 0) rfl h (by omega)
  refine ⟨l, e, hp, fun c => ⟨fun hc => ?_, ?_⟩⟩
  · obtain ⟨i, _, h⟩ := h1 c hc; exact ⟨i, h⟩
  · rintro ⟨i, rfl, hb⟩; exact h2 i (Nat.zero_le _) hb

/-- The bound is needed: with the last bit of the `u16`, iteration overflows. No specification has it (`C50_range`). -/
theorem C50_iterate_refuted : canaries (2 ^ 15) = none := by decide

/-- The start of all suffixes. -/
def pre : List Char := "_canary_".toList
theorem pre_inj {c c' : Char} {t t' : List Char} : pre ++ c :: t = pre ++ c' :: t' ↔ c = c' ∧ t = t' := by
  rw [List.append_right_inj, List.cons.injEq]

/-- Suffixes of distinct canaries differ after their common start. -/
structure Tagged (b : Build) where
  r : List Char
  hr : rustcSuffix b = pre ++ 'r' :: r
  o : "_canary_optlevel".toList ++ b.optLevel = pre ++ 'o' :: ("ptlevel".toList ++ b.optLevel)
  d : "_canary_debug".toList ++ [if b.debug then '1' else '0'] = pre ++ 'd' :: ("ebug".toList ++ [if b.debug then '1' else '0'])
  n : "_canary_numjobs".toList ++ b.numJobs = pre ++ 'n' :: ("umjobs".toList ++ b.numJobs)
  t : "_canary_target_".toList ++ fix b.target = pre ++ 't' :: ("arget_".toList ++ fix b.target)
  h : "_canary_host_".toList ++ fix b.host = pre ++ 'h' :: ("ost_".toList ++ fix b.host)

def tagged (b : Build) : Tagged b :=
  { r := "ustc_".toList ++ (digits 10 b.major ++ '_' :: (digits 10 b.minor ++ '_' :: (digits 10 b.patch ++ '_' :: b.commit.take 8)))
    hr := rfl, o := rfl, d := rfl, n := rfl, t := rfl, h := rfl }

/-- The symbols of an export. -/
theorem exports_eq (b : Build) (h : 8 ≤ b.commit.length) (ident : List Char) :
    exports b ident = some (ident :: [rustcSuffix b, "_canary_optlevel".toList ++ b.optLevel,
      "_canary_debug".toList ++ [if b.debug then '1' else '0'], "_canary_numjobs".toList ++ b.numJobs,
      "_canary_target_".toList ++ fix b.target, "_canary_host_".toList ++ fix b.host].map (ident ++ ·)) := by
  have e : (List.range 6).map (fun i => suffix b (1 <<< i)) =
      [suffix b RUSTC, suffix b OPT_LEVEL, suffix b DEBUG, suffix b NUM_JOBS, suffix b TARGET, suffix b HOST] := rfl
  unfold exports
  rw [e, suffix_rustc b h, suffix_opt, suffix_debug, suffix_jobs, suffix_target, suffix_host]
  rfl

theorem required_eq (b : Build) (h : 8 ≤ b.commit.length) :
    required b = some [rustcSuffix b, "_canary_optlevel".toList ++ b.optLevel, "_canary_debug".toList ++ [if b.debug then '1' else '0'],
      "_canary_target_".toList ++ fix b.target, "_canary_numjobs".toList ++ b.numJobs] := by
  unfold required
  simp only [List.map_cons, List.map_nil]
  rw [suffix_rustc b h, suffix_opt, suffix_debug, suffix_jobs, suffix_target]
  rfl

/-- The seven symbols of an export are different, whatever the build. -/
theorem C50_distinct (b : Build) (h : 8 ≤ b.commit.length) (ident : List Char) :
    ∃ l, exports b ident = some l ∧ l.length = 7 ∧ l.Nodup := by
  refine ⟨_, exports_eq b h ident, rfl, ?_⟩
  obtain ⟨r, hr, ho, hd, hn, ht, hh⟩ := tagged b
  rw [hr, ho, hd, hn, ht, hh]
  have self : ∀ c t, ident ≠ ident ++ (pre ++ c :: t) := by
    intro c t e
    have := congrArg List.length e
    simp at this
  simp only [List.map_cons, List.map_nil, List.nodup_cons, List.mem_cons, List.not_mem_nil, List.append_right_inj, List.cons.injEq, self,
    Char.reduceEq, false_and, or_false, not_false_eq_true, true_and, List.nodup_nil, and_true]

/-- A character that may occur in an identifier. -/
def IdentChar (c : Char) : Prop := c.isAlphanum = true ∨ c = '_'

theorem digitsFuel_ident {base : Nat} (hb : 2 ≤ base) (hb' : base ≤ 16) (f n : Nat) (h : n ≤ f) : ∀ c ∈ digitsFuel base f n, IdentChar c := by
  induction f generalizing n with
  | zero =>
    intro c hc
    simp only [digitsFuel, List.mem_singleton] at hc
    subst hc
    exact .inl (digit_facts n (by omega)).2.2
  | succ f ih =>
    intro c hc
    unfold digitsFuel at hc
    split at hc
    · rw [List.mem_singleton] at hc; subst hc
      exact .inl (digit_facts n (by omega)).2.2
    · rw [List.mem_append, List.mem_singleton] at hc
      rcases hc with hc | rfl
      · exact ih (n / base) (by have := Nat.div_lt_self (n := n) (k := base) (by omega) (by omega); omega) c hc
      · exact .inl (digit_facts _ (by have := Nat.mod_lt n (y := base) (by omega); omega)).2.2

theorem fix_ident (s : List Char) : ∀ c ∈ fix s, IdentChar c := by
  induction s with
  | nil => intro c hc; cases hc
  | cons d s ih =>
    intro c hc
    simp only [fix, List.mem_append] at hc
    rcases hc with hc | hc
    · split at hc
      · rename_i hk
        rw [List.mem_singleton] at hc; subst hc
        simpa [kept, IdentChar] using hk
      · simp only [List.mem_cons, List.mem_append, List.not_mem_nil, or_false] at hc
        rcases hc with rfl | hc | rfl
        · exact .inr rfl
        · exact digitsFuel_ident (by omega) (by omega) _ _ (Nat.le_refl _) c hc
        · exact .inr rfl
    · exact ih c hc

/-- All exported symbols are identifiers if the name of the function is one, whatever the names of the target and the host are (the
commit, the optimisation level and the number of jobs being letters and digits). -/
theorem C50_identifiers (b : Build) (h : 8 ≤ b.commit.length) (ident : List Char) (hi : ∀ c ∈ ident, IdentChar c)
    (hc : ∀ c ∈ b.commit, IdentChar c) (ho : ∀ c ∈ b.optLevel, IdentChar c) (hj : ∀ c ∈ b.numJobs, IdentChar c) :
    ∃ l, exports b ident = some l ∧ ∀ s ∈ l, ∀ c ∈ s, IdentChar c := by
  refine ⟨_, exports_eq b h ident, ?_⟩
  have dg : ∀ n, ∀ c ∈ digits 10 n, IdentChar c := fun n => digitsFuel_ident (by omega) (by omega) _ _ (Nat.le_refl _)
  have us : IdentChar '_' := .inr rfl
  have lit : ∀ s : List Char, (s.all fun c => c.isAlphanum || c == '_') = true → ∀ c ∈ s, IdentChar c := by
    intro s hs c hc
    have := List.all_eq_true.mp hs c hc
    simpa [IdentChar] using this
  intro s hs
  simp only [List.map_cons, List.map_nil, List.mem_cons, List.not_mem_nil, or_false] at hs
  have app : ∀ t : List Char, (∀ c ∈ t, IdentChar c) → ∀ c ∈ ident ++ t, IdentChar c := by
    intro t ht c hc
    rcases List.mem_append.mp hc with hc | hc
    · exact hi c hc
    · exact ht c hc
  have app2 : ∀ t u : List Char, (∀ c ∈ t, IdentChar c) → (∀ c ∈ u, IdentChar c) → ∀ c ∈ t ++ u, IdentChar c := by
    intro t u ht hu c hc
    rcases List.mem_append.mp hc with hc | hc
    · exact ht c hc
    · exact hu c hc
  have con : ∀ u : List Char, (∀ c ∈ u, IdentChar c) → ∀ c ∈ '_' :: u, IdentChar c := by
    intro u hu c hc
    rcases List.mem_cons.mp hc with rfl | hc
    · exact us
    · exact hu c hc
  rcases hs with rfl | rfl | rfl | rfl | rfl | rfl | rfl
  · exact hi
  · refine app _ (app2 _ _ (lit _ (by decide)) (app2 _ _ (dg _) (con _ (app2 _ _ (dg _) (con _ (app2 _ _ (dg _) (con _ ?_)))))))
    intro c hc'
    exact hc c (List.mem_of_mem_take hc')
  · exact app _ (app2 _ _ (lit _ (by decide)) ho)
  · exact app _ (app2 _ _ (lit _ (by decide)) (lit _ (by cases b.debug <;> decide)))
  · exact app _ (app2 _ _ (lit _ (by decide)) hj)
  · exact app _ (app2 _ _ (lit _ (by decide)) (fix_ident _))
  · exact app _ (app2 _ _ (lit _ (by decide)) (fix_ident _))
example : fix "x86_64-unknown.1".toList = "x86_64_2d_unknown_2e_1".toList := by decide

/-- A loader from the same build finds everything it requires, and so does the linker for any specification. -/
theorem C50_same_build (b : Build) (h : 8 ≤ b.commit.length) (ident : List Char) (others : List (List Char)) :
    ∃ l, exports b ident = some l ∧ getCanaried b (l ++ others) ident = some true ∧
      ∀ spec < 2 ^ 6, ∃ i, imports b spec ident = some i ∧ ∀ s ∈ i, s ∈ l := by
  refine ⟨_, exports_eq b h ident, ?_, fun spec hs => ?_⟩
  · unfold getCanaried
    rw [required_eq b h]
    simp
  · obtain ⟨l, e, hp, hm⟩ := C50_iterate spec (by omega)
    unfold imports
    rw [e]
    dsimp only
    have hall : ∀ l : List Nat, (∀ c ∈ l, ∃ i, i < 6 ∧ c = 2 ^ i) →
        ∃ ss, all (l.map (suffix b)) = some ss ∧ ∀ s ∈ ss, s ∈ [rustcSuffix b, "_canary_optlevel".toList ++ b.optLevel,
      "_canary_debug".toList ++ [if b.debug then '1' else '0'], "_canary_numjobs".toList ++ b.numJobs,
      "_canary_target_".toList ++ fix b.target, "_canary_host_".toList ++ fix b.host] := by
      intro l
      induction l with
      | nil => intro _; exact ⟨[], rfl, by exact nofun⟩
      | cons c l ih =>
        intro hc
        obtain ⟨ss, e, hss⟩ := ih (fun d hd => hc d (List.mem_cons_of_mem _ hd))
        obtain ⟨i, hi, rfl⟩ := hc c List.mem_cons_self
        have one : ∃ x, suffix b (2 ^ i) = some x ∧ x ∈ [rustcSuffix b, "_canary_optlevel".toList ++ b.optLevel,
            "_canary_debug".toList ++ [if b.debug then '1' else '0'], "_canary_numjobs".toList ++ b.numJobs,
            "_canary_target_".toList ++ fix b.target, "_canary_host_".toList ++ fix b.host] := by
          have hi' : i = 0 ∨ i = 1 ∨ i = 2 ∨ i = 3 ∨ i = 4 ∨ i = 5 := by omega
          rcases hi' with rfl | rfl | rfl | rfl | rfl | rfl
          · exact ⟨_, suffix_rustc b h, List.mem_cons_self⟩
          · exact ⟨_, suffix_opt b, List.mem_cons_of_mem _ List.mem_cons_self⟩
          · exact ⟨_, suffix_debug b, List.mem_cons_of_mem _ (List.mem_cons_of_mem _ List.mem_cons_self)⟩
          · exact ⟨_, suffix_jobs b, List.mem_cons_of_mem _ (List.mem_cons_of_mem _ (List.mem_cons_of_mem _ List.mem_cons_self))⟩
          · exact ⟨_, suffix_target b, List.mem_cons_of_mem _ (List.mem_cons_of_mem _ (List.mem_cons_of_mem _
              (List.mem_cons_of_mem _ List.mem_cons_self)))⟩
          · exact ⟨_, suffix_host b, List.mem_cons_of_mem _ (List.mem_cons_of_mem _ (List.mem_cons_of_mem _
              (List.mem_cons_of_mem _ (List.mem_cons_of_mem _ List.mem_cons_self))))⟩
        obtain ⟨x, hx, hxm⟩ := one
        refine ⟨x :: ss, by rw [List.map_cons, hx]; simp only [all, e], fun s hs => ?_⟩
        rcases List.mem_cons.mp hs with rfl | hs
        · exact hxm
        · exact hss s hs
    obtain ⟨ss, e', hss⟩ := hall l (fun c hc => by
      obtain ⟨i, rfl, hb⟩ := (hm c).mp hc
      refine ⟨i, ?_, rfl⟩
      rcases Nat.lt_or_ge i 6 with h6 | h6
      · exact h6
      · have h1 := Nat.ge_two_pow_of_testBit hb
        have h2 := Nat.pow_le_pow_right (n := 2) (by omega) h6
        omega)
    rw [e']
    refine ⟨_, rfl, fun s hs => ?_⟩
    rcases List.mem_cons.mp hs with rfl | hs
    · exact List.mem_cons_self
    · obtain ⟨x, hx, rfl⟩ := List.mem_map.mp hs
      exact List.mem_cons_of_mem _ (List.mem_map.mpr ⟨x, hss x hx, rfl⟩)

/-- A loader finds all canaries exactly if its build has the same version of the compiler (up to the first eight characters of the
commit), optimisation level, debug flag and number of jobs, and the same target up to `fix`.  The library may export other symbols
that do not look like canaries of this one. -/
theorem C50_detects_partial (b b' : Build) (h : 8 ≤ b.commit.length) (h' : 8 ≤ b'.commit.length) (ident : List Char)
    (others : List (List Char)) (ho : ∀ s, ident ++ ("_canary_".toList ++ s) ∉ others) :
    ∃ l, exports b ident = some l ∧ (getCanaried b' (l ++ others) ident = some true ↔
      (b.major = b'.major ∧ b.minor = b'.minor ∧ b.patch = b'.patch ∧ b.commit.take 8 = b'.commit.take 8) ∧
      b.optLevel = b'.optLevel ∧ b.debug = b'.debug ∧ b.numJobs = b'.numJobs ∧ fix b.target = fix b'.target) := by
  refine ⟨_, exports_eq b h ident, ?_⟩
  unfold getCanaried
  rw [required_eq b' h']
  have e1 : rustcSuffix b' = rustcSuffix b ↔
      (b.major = b'.major ∧ b.minor = b'.minor ∧ b.patch = b'.patch ∧ b.commit.take 8 = b'.commit.take 8) := by
    constructor
    · intro h; exact rustcSuffix_inj h.symm
    · rintro ⟨h1, h2, h3, h4⟩; unfold rustcSuffix; rw [h1, h2, h3, h4]
  have e2 : ("ptlevel".toList ++ b'.optLevel = "ptlevel".toList ++ b.optLevel) ↔ b.optLevel = b'.optLevel := by
    rw [List.append_right_inj]; exact eq_comm
  have e3 : ("ebug".toList ++ [if b'.debug then '1' else '0'] = "ebug".toList ++ [if b.debug then '1' else '0']) ↔ b.debug = b'.debug := by
    cases b.debug <;> cases b'.debug <;> decide
  have e4 : ("umjobs".toList ++ b'.numJobs = "umjobs".toList ++ b.numJobs) ↔ b.numJobs = b'.numJobs := by
    rw [List.append_right_inj]; exact eq_comm
  have e5 : ("arget_".toList ++ fix b'.target = "arget_".toList ++ fix b.target) ↔ fix b.target = fix b'.target := by
    rw [List.append_right_inj]; exact eq_comm
  obtain ⟨r, hr, ho', hd, hn, ht, hh⟩ := tagged b
  obtain ⟨r', hr', ho2, hd', hn', ht', hh'⟩ := tagged b'
  rw [hr', hr, pre_inj] at e1
  rw [hr, ho', hd, hn, ht, hh, hr', ho2, hd', hn', ht']
  have hother : ∀ t, ident ++ (pre ++ t) ∉ others := ho
  have self : ∀ c t, ident ++ (pre ++ c :: t) ≠ ident := by
    intro c t e
    have := congrArg List.length e
    simp at this
  simp only [Option.some.injEq, Bool.and_eq_true, decide_eq_true_eq, List.all_cons, List.all_nil, Bool.and_true, List.mem_append,
    hother, or_false, List.mem_cons, List.map_cons, List.map_nil, List.append_right_inj, List.not_mem_nil, true_or, true_and,
    List.cons.injEq, self, Char.reduceEq, false_and, false_or, e2, e3, e4, e5]
  simp only [true_and] at e1
  rw [e1]
  constructor
  · rintro ⟨h1, h2, h3, h4, h5⟩; exact ⟨h1, h2, h3, h5, h4⟩
  · rintro ⟨h1, h2, h3, h4, h5⟩; exact ⟨h1, h2, h3, h5, h4⟩

/-- For targets without underscores, "up to `fix`" is equality. -/
theorem C50_target (t t' : List Char) (h : '_' ∉ t) (h' : '_' ∉ t') : fix t = fix t' ↔ t = t' :=
  ⟨fix_inj h h', fun e => by rw [e]⟩

/-- With underscores it is not: two targets are not told apart. -/
theorem C50_target_refuted : ∃ t t' : List Char, t ≠ t' ∧ fix t = fix t' :=
  ⟨"a-b".toList, "a_2d_b".toList, by decide, by decide⟩

/-- With a compiler that does not know its commit, nothing can be exported or loaded with canaries. -/
theorem C50_commit_refuted (b : Build) (h : b.commit = "unknown".toList) (ident : List Char) (lib : List (List Char)) :
    exports b ident = none ∧ getCanaried b lib ident = none := by
  have hs : suffix b RUSTC = none := suffix_rustc_none b (by rw [h]; decide)
  constructor
  · have e : (List.range 6).map (fun i => suffix b (1 <<< i)) =
      [suffix b RUSTC, suffix b OPT_LEVEL, suffix b DEBUG, suffix b NUM_JOBS, suffix b TARGET, suffix b HOST] := rfl
    unfold exports
    rw [e, hs]; rfl
  · unfold getCanaried required
    rw [List.map_cons, hs]; rfl

-- " rustc ,debug" is accepted and selects the bits 0 and 2; a foreign name is not accepted.
example : fromStr Char.isAlpha " rustc ,debug".toList = some 0b101 := by decide
example : fromStr Char.isAlpha "rustc,,debug".toList = none := by decide
example : canaries 0b100101 = some [0b1, 0b100, 0b100000] := by decide
/-- A build. -/
def build1 : Build := ⟨1, 75, 0, "82e1608dfa6e0b5569232559e3d385fea5a93112".toList, "3".toList, false, "8".toList,
  "x86_64-unknown-linux-gnu".toList, "x86_64-unknown-linux-gnu".toList⟩
example : 8 ≤ build1.commit.length := by decide
example : suffix build1 RUSTC = some "_canary_rustc_1_75_0_82e1608d".toList := by decide
example : suffix build1 TARGET = some "_canary_target_x86_64_2d_unknown_2d_linux_2d_gnu".toList := by decide
example : ∀ s, "init".toList ++ ("_canary_".toList ++ s) ∉ ["main".toList] := by
  intro s h
  have := List.mem_singleton.mp h
  simp at this

end Verif.Props.Canary
