import Verif.Macros.Canary
/-! Lemmas on the canaries. -/
namespace Verif.Macros.Canary

/-! ### Specifications -/

/-- Pieces separated by commas. -/
def join : List (List Char) → List Char
  | [] => []
  | [p] => p
  | p :: ps => p ++ ',' :: join ps

theorem split_ne_nil (s : List Char) : split s ≠ [] := by
  cases s with
  | nil => exact nofun
  | cons c s =>
    simp only [split]
    split
    · exact nofun
    · split <;> exact nofun

theorem join_cons {p : List Char} {ps : List (List Char)} (h : ps ≠ []) : join (p :: ps) = p ++ ',' :: join ps := by
  cases ps with
  | nil => exact absurd rfl h
  | cons q ps => rfl

theorem join_split (s : List Char) : join (split s) = s := by
  induction s with
  | nil => rfl
  | cons c s ih =>
    simp only [split]
    split
    · rename_i h; subst h
      rw [join_cons (split_ne_nil s), ih]; rfl
    · cases h : split s with
      | nil => exact absurd h (split_ne_nil s)
      | cons r rs =>
        rw [h] at ih
        dsimp only
        cases rs with
        | nil => simp only [join] at ih ⊢; rw [ih]
        | cons q rs => simp only [join] at ih ⊢; rw [List.cons_append, ih]

theorem comma_split {s p : List Char} (h : p ∈ split s) : ',' ∉ p := by
  induction s generalizing p with
  | nil => simp only [split, List.mem_singleton] at h; subst h; exact nofun
  | cons c s ih =>
    simp only [split] at h
    split at h
    · rcases List.mem_cons.mp h with rfl | h
      · exact nofun
      · exact ih h
    · rename_i hc
      cases hs : split s with
      | nil => exact absurd hs (split_ne_nil s)
      | cons r rs =>
        rw [hs] at h ih
        rcases List.mem_cons.mp h with rfl | h
        · intro hm
          rcases List.mem_cons.mp hm with e | hm
          · exact hc e.symm
          · exact ih List.mem_cons_self hm
        · exact ih (List.mem_cons_of_mem _ h)

theorem split_append {p : List Char} (h : ',' ∉ p) (s : List Char) : split (p ++ ',' :: s) = p :: split s := by
  induction p with
  | nil => simp [split]
  | cons c p ih =>
    have hc : c ≠ ',' := fun e => h (by simp [e])
    have := ih (fun hm => h (List.mem_cons_of_mem _ hm))
    simp only [List.cons_append, split, if_neg hc, this]

theorem split_plain {p : List Char} (h : ',' ∉ p) : split p = [p] := by
  induction p with
  | nil => rfl
  | cons c p ih =>
    have hc : c ≠ ',' := fun e => h (by simp [e])
    have := ih (fun hm => h (List.mem_cons_of_mem _ hm))
    simp only [split, if_neg hc, this]

theorem split_join {ps : List (List Char)} (hn : ps ≠ []) (h : ∀ p ∈ ps, ',' ∉ p) : split (join ps) = ps := by
  induction ps with
  | nil => exact absurd rfl hn
  | cons p ps ih =>
    cases ps with
    | nil => exact split_plain (h p List.mem_cons_self)
    | cons q ps =>
      rw [join_cons (by exact nofun), split_append (h p List.mem_cons_self), ih (by exact nofun) (fun x hx => h x (List.mem_cons_of_mem _ hx))]

theorem dropWhile_spaces (s : List Char) : ∃ a, s = List.replicate a ' ' ++ s.dropWhile (· == ' ') := by
  induction s with
  | nil => exact ⟨0, rfl⟩
  | cons c s ih =>
    by_cases h : c = ' '
    · obtain ⟨a, ha⟩ := ih
      refine ⟨a + 1, ?_⟩
      rw [List.dropWhile_cons_of_pos (by simp [h]), List.replicate_succ, List.cons_append, ← ha, h]
    · exact ⟨0, by rw [List.dropWhile_cons_of_neg (by simp [h])]; rfl⟩

/-- A string is its trimmed form between spaces. -/
theorem trim_spec (s : List Char) : ∃ a b, s = List.replicate a ' ' ++ (trim s ++ List.replicate b ' ') := by
  obtain ⟨a, ha⟩ := dropWhile_spaces s
  obtain ⟨b, hb⟩ := dropWhile_spaces (s.dropWhile (· == ' ')).reverse
  refine ⟨a, b, ?_⟩
  have : s.dropWhile (· == ' ') = trim s ++ List.replicate b ' ' := by
    have := congrArg List.reverse hb
    rw [List.reverse_reverse, List.reverse_append, List.reverse_replicate] at this
    exact this
  rw [← this]; exact ha

theorem dropWhile_replicate (a : Nat) (s : List Char) : (List.replicate a ' ' ++ s).dropWhile (· == ' ') = s.dropWhile (· == ' ') := by
  induction a with
  | zero => rfl
  | succ a ih => rw [List.replicate_succ, List.cons_append, List.dropWhile_cons_of_pos (by rfl), ih]

theorem dropWhile_none {s : List Char} (h : ' ' ∉ s) : s.dropWhile (· == ' ') = s := by
  cases s with
  | nil => rfl
  | cons c s =>
    rw [List.dropWhile_cons_of_neg]
    simp only [beq_iff_eq]
    exact fun e => h (by simp [e])

theorem trim_pad {s : List Char} (h : ' ' ∉ s) (a b : Nat) : trim (List.replicate a ' ' ++ (s ++ List.replicate b ' ')) = s := by
  unfold trim
  rw [dropWhile_replicate]
  cases s with
  | nil =>
    have : (List.replicate b ' ').dropWhile (· == ' ') = [] := by
      have := dropWhile_replicate b []
      simpa using this
    simp [this]
  | cons c s =>
    have hc : c ≠ ' ' := fun e => h (by simp [e])
    rw [List.cons_append, List.dropWhile_cons_of_neg (by simp [hc]), ← List.cons_append, List.reverse_append, List.reverse_replicate,
      dropWhile_replicate, dropWhile_none (by rw [List.mem_reverse]; exact h), List.reverse_reverse]

theorem requests_spec (rs : List (List Char)) (this m : Nat) :
    requests rs this = some m ↔ ∃ vs : List Nat, rs.map (fun r => lookup (trim r) ARRAY) = vs.map some ∧ m = vs.foldl (· ||| ·) this := by
  induction rs generalizing this with
  | nil =>
    constructor
    · intro h; cases h; exact ⟨[], rfl, rfl⟩
    · rintro ⟨vs, h, rfl⟩
      cases vs with
      | nil => rfl
      | cons v vs => cases h
  | cons r rs ih =>
    simp only [requests]
    cases h : lookup (trim r) ARRAY with
    | none =>
      constructor
      · exact nofun
      · rintro ⟨vs, h', rfl⟩
        cases vs with
        | nil => cases h'
        | cons v vs => simp [h] at h'
    | some spec =>
      dsimp only
      rw [ih]
      constructor
      · rintro ⟨vs, h1, rfl⟩
        exact ⟨spec :: vs, by simp [h, h1], rfl⟩
      · rintro ⟨vs, h1, rfl⟩
        cases vs with
        | nil => cases h1
        | cons v vs =>
          simp only [List.map_cons, h, List.cons.injEq, Option.some.injEq] at h1
          obtain ⟨rfl, h1⟩ := h1
          exact ⟨vs, h1, rfl⟩

theorem lookup_mem {r : List Char} {v : Nat} {l : List (List Char × Nat)} (h : lookup r l = some v) : (r, v) ∈ l := by
  induction l with
  | nil => cases h
  | cons x l ih =>
    obtain ⟨n, s⟩ := x
    simp only [lookup] at h
    split at h
    · rename_i e; cases h; subst e; exact List.mem_cons_self
    · exact List.mem_cons_of_mem _ (ih h)

/-! ### Iteration -/

theorem and_pow_ne_zero (i s : Nat) : (2 ^ i &&& s ≠ 0) ↔ s.testBit i = true := by
  constructor
  · intro h
    obtain ⟨j, hj⟩ := Nat.exists_testBit_of_ne_zero h
    rw [Nat.testBit_and, Nat.testBit_two_pow, Bool.and_eq_true, decide_eq_true_iff] at hj
    rw [hj.1]; exact hj.2
  · intro h e
    have : (2 ^ i &&& s).testBit i = true := by rw [Nat.testBit_and, Nat.testBit_two_pow_self, h]; rfl
    rw [e, Nat.zero_testBit] at this; cases this

theorem iter_spec {k spec shift : Nat} (hk : shift + k = 16) (hs : spec < 2 ^ 15) (h15 : shift ≤ 15) :
    ∃ l, iter k spec shift = some l ∧ l.Pairwise (· < ·) ∧ (∀ c ∈ l, ∃ i, shift ≤ i ∧ c = 2 ^ i ∧ spec.testBit i = true) ∧
      ∀ i, shift ≤ i → spec.testBit i = true → 2 ^ i ∈ l := by
  induction k generalizing shift with
  | zero => omega
  | succ k ih =>
    simp only [iter]
    by_cases h : 2 ^ shift > spec
    · rw [if_pos h]
      refine ⟨[], rfl, List.Pairwise.nil, fun c hc => absurd hc (by exact nofun), fun i hi hb => ?_⟩
      have h1 := Nat.ge_two_pow_of_testBit hb
      have h2 := Nat.pow_le_pow_right (n := 2) (by omega) hi
      omega
    · rw [if_neg h]
      have h14 : shift + 1 ≤ 15 := by
        rcases Nat.lt_or_ge shift 15 with h' | h'
        · omega
        · have := Nat.pow_le_pow_right (n := 2) (by omega) h'
          omega
      obtain ⟨l, e, hp, h1, h2⟩ := ih (shift := shift + 1) (by omega) h14
      rw [e]
      by_cases hb : spec.testBit shift = true
      · have hb' : (2 ^ shift &&& spec ≠ 0) := (and_pow_ne_zero _ _).mpr hb
        dsimp only
        rw [if_pos hb']
        refine ⟨_, rfl, List.Pairwise.cons (fun c hc => ?_) hp, fun c hc => ?_, fun i hi hbi => ?_⟩
        · obtain ⟨i, hi, rfl, _⟩ := h1 c hc
          exact Nat.pow_lt_pow_right (by omega) (by omega)
        · rcases List.mem_cons.mp hc with rfl | hc
          · exact ⟨shift, Nat.le_refl _, rfl, hb⟩
          · obtain ⟨i, hi, r⟩ := h1 c hc
            exact ⟨i, by omega, r⟩
        · rcases Nat.eq_or_lt_of_le hi with rfl | hi
          · exact List.mem_cons_self
          · exact List.mem_cons_of_mem _ (h2 i hi hbi)
      · have hb' : ¬ (2 ^ shift &&& spec ≠ 0) := fun h => hb ((and_pow_ne_zero _ _).mp h)
        dsimp only
        rw [if_neg hb']
        refine ⟨_, rfl, hp, fun c hc => ?_, fun i hi hbi => ?_⟩
        · obtain ⟨i, hi, r⟩ := h1 c hc
          exact ⟨i, by omega, r⟩
        · rcases Nat.eq_or_lt_of_le hi with rfl | hi
          · exact absurd hbi hb
          · exact h2 i hi hbi

/-! ### Numbers and `fix` -/

/-- The value of a digit. -/
def undigit (c : Char) : Nat := if c.toNat < 58 then c.toNat - 48 else c.toNat - 87

theorem digit_facts : ∀ d, d < 16 → undigit (digit d) = d ∧ digit d ≠ '_' ∧ (digit d).isAlphanum = true := by decide

/-- The value of a number in a base. -/
def undigits (base : Nat) (l : List Char) : Nat := l.foldl (fun v c => v * base + undigit c) 0

theorem digitsFuel_spec {base : Nat} (hb : 2 ≤ base) (hb' : base ≤ 16) (f n : Nat) (h : n ≤ f) :
    undigits base (digitsFuel base f n) = n ∧ ∀ c ∈ digitsFuel base f n, c ≠ '_' := by
  induction f generalizing n with
  | zero =>
    have hn : n = 0 := by omega
    subst hn
    refine ⟨by simp [undigits, digitsFuel, (digit_facts 0 (by omega)).1], fun c hc => ?_⟩
    simp only [digitsFuel, List.mem_singleton] at hc
    rw [hc]; exact (digit_facts 0 (by omega)).2.1
  | succ f ih =>
    simp only [digitsFuel]
    by_cases hn : n < base
    · rw [if_pos hn]
      refine ⟨by simp [undigits, (digit_facts n (by omega)).1], fun c hc => ?_⟩
      simp only [List.mem_singleton] at hc
      rw [hc]; exact (digit_facts n (by omega)).2.1
    · rw [if_neg hn]
      have hd : n / base ≤ f := by
        have : n / base < n := Nat.div_lt_self (by omega) (by omega)
        omega
      have hm : n % base < base := Nat.mod_lt _ (by omega)
      obtain ⟨h1, h2⟩ := ih (n / base) hd
      refine ⟨?_, fun c hc => ?_⟩
      · unfold undigits at h1 ⊢
        rw [List.foldl_append, h1]
        simp only [List.foldl_cons, List.foldl_nil, (digit_facts (n % base) (by omega)).1]
        rw [Nat.mul_comm]; exact Nat.div_add_mod n base
      · rcases List.mem_append.mp hc with hc | hc
        · exact h2 c hc
        · simp only [List.mem_singleton] at hc
          rw [hc]; exact (digit_facts _ (by omega)).2.1

theorem digits_inj {base : Nat} (hb : 2 ≤ base) (hb' : base ≤ 16) {m n : Nat} (h : digits base m = digits base n) : m = n := by
  have h1 := (digitsFuel_spec hb hb' m m (Nat.le_refl _)).1
  have h2 := (digitsFuel_spec hb hb' n n (Nat.le_refl _)).1
  unfold digits at h
  rw [h] at h1
  exact h1.symm.trans h2

theorem digits_plain {base : Nat} (hb : 2 ≤ base) (hb' : base ≤ 16) (n : Nat) : '_' ∉ digits base n :=
  fun h => (digitsFuel_spec hb hb' n n (Nat.le_refl _)).2 _ h rfl

/-- What comes before the first underscore is unique. -/
theorem underscore_split {a a' s s' : List Char} (h : '_' ∉ a) (h' : '_' ∉ a') (e : a ++ '_' :: s = a' ++ '_' :: s') :
    a = a' ∧ s = s' := by
  induction a generalizing a' with
  | nil =>
    cases a' with
    | nil => cases e; exact ⟨rfl, rfl⟩
    | cons c a' => cases e; exact absurd List.mem_cons_self h'
  | cons c a ih =>
    cases a' with
    | nil => cases e; exact absurd List.mem_cons_self h
    | cons c' a' =>
      simp only [List.cons_append, List.cons.injEq] at e
      obtain ⟨rfl, e⟩ := e
      obtain ⟨rfl, r⟩ := ih (fun hm => h (List.mem_cons_of_mem _ hm)) (fun hm => h' (List.mem_cons_of_mem _ hm)) e
      exact ⟨rfl, r⟩

theorem fix_cons_kept {c : Char} {s : List Char} (h : kept c = true) : fix (c :: s) = c :: fix s := by
  simp only [fix, h, if_true]; rfl
theorem fix_cons_esc {c : Char} {s : List Char} (h : kept c = false) :
    fix (c :: s) = '_' :: (digits 16 c.toNat ++ '_' :: fix s) := by
  simp [fix, h]

/-- Without underscores, `fix` is injective. -/
theorem fix_inj {s s' : List Char} (h : '_' ∉ s) (h' : '_' ∉ s') (e : fix s = fix s') : s = s' := by
  induction s generalizing s' with
  | nil =>
    cases s' with
    | nil => rfl
    | cons c s' =>
      cases hc : kept c with
      | true => rw [fix_cons_kept hc] at e; cases e
      | false => rw [fix_cons_esc hc] at e; cases e
  | cons c s ih =>
    have hcu : c ≠ '_' := fun e => h (by simp [e])
    have ih' := fun {s'} (hs : '_' ∉ s') => ih (s' := s') (fun hm => h (List.mem_cons_of_mem _ hm)) hs
    cases s' with
    | nil =>
      cases hc : kept c with
      | true => rw [fix_cons_kept hc] at e; cases e
      | false => rw [fix_cons_esc hc] at e; cases e
    | cons c' s' =>
      have hcu' : c' ≠ '_' := fun e => h' (by simp [e])
      have hs' : '_' ∉ s' := fun hm => h' (List.mem_cons_of_mem _ hm)
      cases hc : kept c with
      | true =>
        rw [fix_cons_kept hc] at e
        cases hc' : kept c' with
        | true =>
          rw [fix_cons_kept hc'] at e
          simp only [List.cons.injEq] at e
          rw [e.1, ih' hs' e.2]
        | false =>
          rw [fix_cons_esc hc'] at e
          simp only [List.cons.injEq] at e
          exact absurd e.1 hcu
      | false =>
        rw [fix_cons_esc hc] at e
        cases hc' : kept c' with
        | true =>
          rw [fix_cons_kept hc'] at e
          simp only [List.cons.injEq] at e
          exact absurd e.1.symm hcu'
        | false =>
          rw [fix_cons_esc hc'] at e
          simp only [List.cons.injEq, true_and] at e
          obtain ⟨e1, e2⟩ := underscore_split (digits_plain (by omega) (by omega) _) (digits_plain (by omega) (by omega) _) e
          have := digits_inj (by omega) (by omega) e1
          rw [ih' hs' e2, Char.toNat_inj.mp this]

/-! ### Suffixes -/

theorem suffix_opt (b : Build) : suffix b OPT_LEVEL = some ("_canary_optlevel".toList ++ b.optLevel) := by
  simp [suffix, has, RUSTC, OPT_LEVEL, DEBUG, NUM_JOBS, TARGET, HOST]
theorem suffix_debug (b : Build) : suffix b DEBUG = some ("_canary_debug".toList ++ [if b.debug then '1' else '0']) := by
  simp [suffix, has, RUSTC, OPT_LEVEL, DEBUG, NUM_JOBS, TARGET, HOST]
theorem suffix_jobs (b : Build) : suffix b NUM_JOBS = some ("_canary_numjobs".toList ++ b.numJobs) := by
  simp [suffix, has, RUSTC, OPT_LEVEL, DEBUG, NUM_JOBS, TARGET, HOST]
theorem suffix_target (b : Build) : suffix b TARGET = some ("_canary_target_".toList ++ fix b.target) := by
  simp [suffix, has, RUSTC, OPT_LEVEL, DEBUG, NUM_JOBS, TARGET, HOST]
theorem suffix_host (b : Build) : suffix b HOST = some ("_canary_host_".toList ++ fix b.host) := by
  simp [suffix, has, RUSTC, OPT_LEVEL, DEBUG, NUM_JOBS, TARGET, HOST]
/-- The suffix of the compiler. -/
def rustcSuffix (b : Build) : List Char :=
  "_canary_rustc_".toList ++ (digits 10 b.major ++ '_' :: (digits 10 b.minor ++ '_' :: (digits 10 b.patch ++ '_' :: b.commit.take 8)))
theorem suffix_rustc (b : Build) (h : 8 ≤ b.commit.length) : suffix b RUSTC = some (rustcSuffix b) := by
  have h0 : decide (b.commit.length < 8) = false := decide_eq_false (by omega)
  have e : "_canary_rustc_".toList = "_canary".toList ++ "_rustc_".toList := by decide
  have h1 : has RUSTC RUSTC = true := by decide
  have h2 : has RUSTC OPT_LEVEL = false := by decide
  have h3 : has RUSTC DEBUG = false := by decide
  have h4 : has RUSTC NUM_JOBS = false := by decide
  have h5 : has RUSTC TARGET = false := by decide
  have h6 : has RUSTC HOST = false := by decide
  unfold suffix rustcSuffix
  rw [h1, h2, h3, h4, h5, h6, h0, e]
  simp only [Bool.and_false, Bool.false_eq_true, if_false, if_true, List.append_nil, List.append_assoc]
theorem suffix_rustc_none (b : Build) (h : b.commit.length < 8) : suffix b RUSTC = none := by
  simp [suffix, has, RUSTC, h]

theorem rustcSuffix_inj {b b' : Build} (h : rustcSuffix b = rustcSuffix b') :
    b.major = b'.major ∧ b.minor = b'.minor ∧ b.patch = b'.patch ∧ b.commit.take 8 = b'.commit.take 8 := by
  unfold rustcSuffix at h
  replace h := List.append_cancel_left h
  have p := fun n => digits_plain (base := 10) (by omega) (by omega) n
  obtain ⟨h1, h⟩ := underscore_split (p _) (p _) h
  obtain ⟨h2, h⟩ := underscore_split (p _) (p _) h
  obtain ⟨h3, h⟩ := underscore_split (p _) (p _) h
  have inj := fun {m n : Nat} => digits_inj (base := 10) (m := m) (n := n) (by omega) (by omega)
  exact ⟨inj h1, inj h2, inj h3, h⟩

end Verif.Macros.Canary
