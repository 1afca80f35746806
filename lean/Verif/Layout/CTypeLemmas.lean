import Verif.Layout.CType

namespace Verif.Layout.CType
open Verif.Layout Verif.Layout.Platform

theorem alignUp_self {n a : Nat} (ha : 0 < a) (h : a ∣ n) : alignUp n a = n := by
  rw [← nextMul_eq ha, nextMul_self (Nat.mod_eq_zero_of_dvd h)]

theorem alignUp_dvd (n a : Nat) : a ∣ alignUp n a := by rw [alignUp]; exact Nat.dvd_mul_left _ _

theorem le_alignUp {n a : Nat} (ha : 0 < a) : n ≤ alignUp n a := by rw [← nextMul_eq ha]; exact le_nextMul _ _

theorem alignUp_zero {a : Nat} (ha : 0 < a) : alignUp 0 a = 0 := alignUp_self ha (Nat.dvd_zero _)

/-- A size and an alignment a type may have. -/
structure Ok (l : Nat × Nat) : Prop where
  pow : Pow2 l.2
  dvd : l.2 ∣ l.1

theorem natAlign_pow2 {fs : List (Nat × Nat)} (h : ∀ f ∈ fs, Ok f) : Pow2 (natAlign fs) := by
  induction fs with
  | nil => exact ⟨0, rfl⟩
  | cons f fs ih => exact (h f (List.mem_cons_self ..)).pow.max (ih fun g hg => h g (List.mem_cons_of_mem _ hg))

theorem structLay_ok {a : Nat} {fs : List (Nat × Nat)} (ha : Pow2 a) (h : ∀ f ∈ fs, Ok f) : Ok (structLay a fs) :=
  ⟨ha.max (natAlign_pow2 h), alignUp_dvd _ _⟩

theorem unionLay_ok {fs : List (Nat × Nat)} (h : ∀ f ∈ fs, Ok f) : Ok (unionLay fs) := ⟨natAlign_pow2 h, alignUp_dvd _ _⟩

theorem structLay_one {f : Nat × Nat} (h : Ok f) : structLay 1 [f] = f := by
  obtain ⟨s, a⟩ := f
  have hp := h.pow.pos
  simp only [structLay, natEnd, natAlign, alignUp_zero hp, Nat.zero_add] at *
  have : max 1 (max a 1) = a := by omega
  rw [this, alignUp_self hp h.dvd]

/-- Two fields of the same alignment, without padding. -/
theorem structLay_pair {x y a : Nat} (ha : Pow2 a) (hx : a ∣ x) (hy : a ∣ y) : structLay 1 [(x, a), (y, a)] = (x + y, a) := by
  have hp := ha.pos
  simp only [structLay, natEnd, natAlign, alignUp_zero hp, Nat.zero_add, alignUp_self hp hx] at *
  have : max 1 (max a (max a 1)) = a := by omega
  rw [this, alignUp_self hp (Nat.dvd_add hx hy)]

/-! ### Arrays of integers -/

/-- Of this size and alignment, without padding. -/
structure Full (t : Target) (ty : Ty) (s a : Nat) : Prop where
  lay : lay t ty = (s, a)
  data : ∀ i, data t ty i = decide (i < s)

theorem Full.pair {t : Target} {p q : Ty} {x y a : Nat} (ha : Pow2 a) (hx : a ∣ x) (hy : a ∣ y) (hp : Full t p x a) (hq : Full t q y a) :
    Full t (.struct [p, q]) (x + y) a := by
  refine ⟨?_, fun i => ?_⟩
  · rw [CType.lay, lays, lays, lays, hp.lay, hq.lay, structLay_pair ha hx hy]
  · rw [CType.data, datas, datas, datas, hp.lay, hq.lay]
    simp only [dataAt, alignUp_zero ha.pos, Nat.zero_add, alignUp_self ha.pos hx, hp.data, hq.data, Nat.sub_zero, Nat.zero_le, decide_true,
      Bool.true_and, Bool.or_false]
    rw [Bool.eq_iff_iff]
    simp only [Bool.or_eq_true, Bool.and_eq_true, decide_eq_true_eq]
    omega

theorem Full.unit (t : Target) : Full t (.prim .unit) 0 1 := ⟨by rw [CType.lay]; rfl, fun i => by rw [CType.data]; rfl⟩

theorem Full.twice {t : Target} {p : Ty} {m k a : Nat} (ha : Pow2 a) (hk : a ∣ k) (h : Full t p (m * k) a) :
    Full t (.struct [p, p]) (2 * m * k) a := by
  have := Full.pair ha (Nat.dvd_mul_left_of_dvd hk m) (Nat.dvd_mul_left_of_dvd hk m) h h
  rwa [show 2 * m * k = m * k + m * k by rw [Nat.mul_assoc]; omega]

theorem half (n m : Nat) : n * m = (n % 2) * m + n / 2 * (2 * m) := by
  have := Nat.div_add_mod n 2
  rw [← Nat.mul_assoc, ← Nat.add_mul]
  congr 1; omega

theorem addToArray_lsb {t : Target} {k a : Nat} (ha : Pow2 a) (hk : a ∣ k) (fuel : Nat) :
    ∀ (n l m : Nat) (lsb stack : Ty), n ≤ fuel → Full t lsb (l * k) a → Full t stack (m * k) a →
      Full t (addToArray fuel n false lsb stack) ((l + n * m) * k) a := by
  induction fuel with
  | zero => intro n l m lsb stack hn hl _; obtain rfl : n = 0 := by omega
            simpa [addToArray] using hl
  | succ fuel ih =>
    intro n l m lsb stack hn hl hs
    rw [addToArray]
    split
    · rename_i h; subst h; simpa using hl
    have hf : n / 2 ≤ fuel := by omega
    split
    · rename_i h
      have := ih (n / 2) (m + l) (2 * m) (.struct [stack, lsb]) _ hf
        (by rw [Nat.add_mul]; exact hs.pair ha (Nat.dvd_mul_left_of_dvd hk m) (Nat.dvd_mul_left_of_dvd hk l) hl) (hs.twice ha hk)
      rw [half n m, h, Nat.one_mul]
      rwa [show l + (m + n / 2 * (2 * m)) = m + l + n / 2 * (2 * m) by omega]
    · rename_i h
      have := ih (n / 2) l (2 * m) lsb _ hf hl (hs.twice ha hk)
      have h0 : n % 2 = 0 := by omega
      rwa [half n m, h0, Nat.zero_mul, Nat.zero_add]

theorem addToArray_empty {t : Target} {k a : Nat} (ha : Pow2 a) (hk : a ∣ k) (fuel : Nat) :
    ∀ (n m : Nat) (lsb stack : Ty), n ≤ fuel → 0 < n → Full t stack (m * k) a →
      Full t (addToArray fuel n true lsb stack) (n * m * k) a := by
  induction fuel with
  | zero => intro n m lsb stack hn h0; omega
  | succ fuel ih =>
    intro n m lsb stack hn h0 hs
    rw [addToArray, if_neg (by omega)]
    have hf : n / 2 ≤ fuel := by omega
    split
    · rename_i h
      have := addToArray_lsb ha hk fuel (n / 2) m (2 * m) stack _ hf hs (hs.twice ha hk)
      rw [half n m, h, Nat.one_mul]
      exact this
    · rename_i h
      have h1 : n % 2 = 0 := by omega
      have := ih (n / 2) (2 * m) lsb _ hf (by omega) (hs.twice ha hk)
      rwa [half n m, h1, Nat.zero_mul, Nat.zero_add]

/-- An array has the size of its elements together. -/
theorem arrayOf_full {t : Target} {ty : Ty} {k a : Nat} (ha : Pow2 a) (hk : a ∣ k) (h : Full t ty k a) (n : Nat) :
    Full t (arrayOf n ty) (n * k) (if n = 0 then 1 else a) := by
  unfold arrayOf
  split
  · rename_i h0; subst h0; rw [Nat.zero_mul]; exact Full.unit t
  · have := addToArray_empty ha hk n n 1 (.prim .unit) ty (Nat.le_refl _) (by omega) (by rwa [Nat.one_mul])
    rwa [Nat.mul_one] at this

theorem addToArray_ctype (t : Target) (fuel : Nat) : ∀ (n : Nat) (e : Bool) (lsb stack : Ty),
    ctype t (addToArray fuel n e lsb stack) = addToArray fuel n e (ctype t lsb) (ctype t stack) := by
  induction fuel with
  | zero => intros; rfl
  | succ fuel ih =>
    intro n e lsb stack
    rw [addToArray, addToArray]
    split
    · rfl
    split
    · rw [ih]
      cases e <;> simp [ctype, ctypes]
    · rw [ih]
      simp [ctype, ctypes]

theorem asUint_cases (a : Nat) : (∃ w, asUint a = .prim (.uint w)) ∨ asUint a = .aligned a [.array a (.prim (.uint .w8))] := by
  unfold asUint
  repeat' split
  · exact .inl ⟨_, rfl⟩
  · exact .inl ⟨_, rfl⟩
  · exact .inl ⟨_, rfl⟩
  · exact .inl ⟨_, rfl⟩
  · exact .inl ⟨_, rfl⟩
  · exact .inr rfl

/-- `chunkCType` is what it should be. -/
theorem ctype_chunk (t : Target) (s a : Nat) : ctype t (chunk s a) = chunkCType t s a := by
  unfold chunk chunkCType arrayOf
  rw [addToArray_ctype]
  congr 1
  rcases asUint_cases a with ⟨w, h⟩ | h <;> rw [h, uintCType, h, ctype]

/-! ### Targets where integers are aligned to their size -/

/-- Integers, pointers and floats are aligned to their size. -/
structure Natural (t : Target) : Prop where
  ptr : t.ptr = 2 ∨ t.ptr = 4 ∨ t.ptr = 8
  a16 : t.a16 = 2
  a32 : t.a32 = 4
  a64 : t.a64 = 8
  a128 : t.a128 = 16
  aptr : t.aptr = t.ptr
  af32 : t.af32 = 4
  af64 : t.af64 = 8

theorem prim_ok {t : Target} (ht : Natural t) (p : Prim) : Ok (primSize t p, primAlign t p) := by
  have h2 : Pow2 t.ptr := by
    rcases ht.ptr with h | h | h <;> rw [h]
    · exact ⟨1, rfl⟩
    · exact ⟨2, rfl⟩
    · exact ⟨3, rfl⟩
  have hw : ∀ w : Width, t.alignU w = w.bytes := by
    intro w; cases w <;> simp [Target.alignU, Width.bytes, ht.a16, ht.a32, ht.a64, ht.a128]
  have hb : ∀ w : Width, Pow2 w.bytes := by
    intro w; cases w
    · exact ⟨0, rfl⟩
    · exact ⟨1, rfl⟩
    · exact ⟨2, rfl⟩
    · exact ⟨3, rfl⟩
    · exact ⟨4, rfl⟩
  have h1 : Pow2 1 := ⟨0, rfl⟩
  have h4 : Pow2 4 := ⟨2, rfl⟩
  have h8 : Pow2 8 := ⟨3, rfl⟩
  cases p <;> constructor <;> simp [primSize, primAlign, ht.a32, ht.af32, ht.af64, ht.aptr, hw, h1, h4, h8, h2, hb]

theorem prim_full {t : Target} (p : Prim) : Full t (.prim p) (primSize t p) (primAlign t p) := by
  constructor
  · rw [lay]
  · intro i; rw [data]

/-- `AsUint` on such targets. -/
theorem asUint_full {t : Target} (ht : Natural t) {a : Nat} (ha : Pow2 a) : Full t (asUint a) a a := by
  unfold asUint
  split
  · rename_i h; subst h; exact prim_full (.uint .w8)
  split
  · rename_i h; subst h; have := prim_full (t := t) (.uint .w16); rwa [show primAlign t (.uint .w16) = 2 from ht.a16] at this
  split
  · rename_i h; subst h; have := prim_full (t := t) (.uint .w32); rwa [show primAlign t (.uint .w32) = 4 from ht.a32] at this
  split
  · rename_i h; subst h; have := prim_full (t := t) (.uint .w64); rwa [show primAlign t (.uint .w64) = 8 from ht.a64] at this
  split
  · rename_i h; subst h; have := prim_full (t := t) (.uint .w128); rwa [show primAlign t (.uint .w128) = 16 from ht.a128] at this
  have hp := ha.pos
  constructor
  · simp only [lay, lays, structLay, natEnd, natAlign, primSize, primAlign, Width.bytes, Target.alignU, alignUp_zero Nat.one_pos, Nat.zero_add, Nat.mul_one, Nat.max_self]
    have : max a 1 = a := by omega
    rw [this, alignUp_self hp (Nat.dvd_refl _)]
  · intro i
    simp only [data, datas, dataAt, lay, primSize, primAlign, Width.bytes, Target.alignU, alignUp_zero Nat.one_pos, Nat.sub_zero, Nat.mod_one]
    simp

theorem uintLay_eq {t : Target} (ht : Natural t) {a : Nat} (ha : Pow2 a) : uintLay t a = (a, a) := by
  unfold uintLay
  repeat' split
  all_goals try (rename_i h; subst h; simp [ht.a16, ht.a32, ht.a64, ht.a128]; done)
  have hp := ha.pos
  simp only [structLay, natEnd, natAlign, alignUp_zero Nat.one_pos, Nat.zero_add, Nat.max_self]
  have : max a 1 = a := by omega
  rw [this, alignUp_self hp (Nat.dvd_refl _)]

theorem chunk_full {t : Target} (ht : Natural t) {s a : Nat} (ha : Pow2 a) :
    Full t (chunk s a) (s / a * a) (if s / a = 0 then 1 else a) := arrayOf_full ha (Nat.dvd_refl _) (asUint_full ht ha) _

/-- `chunkLay` is what it should be. -/
theorem chunkLay_eq {t : Target} (ht : Natural t) {s a : Nat} (ha : Pow2 a) : chunkLay t s a = lay t (chunk s a) := by
  rw [(chunk_full ht ha).lay, chunkLay, uintLay_eq ht ha]
  split
  · rename_i h; rw [h, Nat.zero_mul]
  · rfl

theorem uintCType_eq {t : Target} (ht : Natural t) (a : Nat) : uintCType t a = asUint a := by
  by_cases h1 : a = 1
  · subst h1; rfl
  by_cases h2 : a = 2
  · subst h2; rfl
  by_cases h4 : a = 4
  · subst h4; rfl
  by_cases h8 : a = 8
  · subst h8; simp [uintCType, ctypePrim, decl, declU, Lay.prim, asUint, ht.a64, exprToType]
  by_cases h16 : a = 16
  · subst h16; simp [uintCType, ctypePrim, decl, declU, Lay.prim, asUint, ht.a128, exprToType]
  have h : asUint a = .aligned a [.array a (.prim (.uint .w8))] := by
    rw [asUint, if_neg h1, if_neg h2, if_neg h4, if_neg h8, if_neg h16]
  rw [uintCType, h]

/-- Arrays of integers are their own `CType`. -/
theorem chunkCType_eq {t : Target} (ht : Natural t) (s a : Nat) : chunkCType t s a = chunk s a := by
  rw [chunkCType, uintCType_eq ht, chunk]

/-- The `CType` of a primitive type has its size and alignment, and no padding. -/
theorem ctypePrim_full {t : Target} (ht : Natural t) {p : Prim} (hp : p ≠ .cVoid) : Full t (ctypePrim t p) (primSize t p) (primAlign t p) := by
  have hw : ∀ w : Width, t.alignU w = w.bytes := by
    intro w; cases w <;> simp [Target.alignU, Width.bytes, ht.a16, ht.a32, ht.a64, ht.a128]
  have key : ∀ a, Pow2 a → primSize t p = a → primAlign t p = a → (decl t p).align = a → ctypePrim t p = asUint (decl t p).align →
      Full t (ctypePrim t p) (primSize t p) (primAlign t p) := by
    intro a ha h1 h2 h3 h4
    rw [h4, h3, h1, h2]
    exact asUint_full ht ha
  have u8 : Pow2 1 := ⟨0, rfl⟩
  have u16 : Pow2 2 := ⟨1, rfl⟩
  have u32 : Pow2 4 := ⟨2, rfl⟩
  have u64 : Pow2 8 := ⟨3, rfl⟩
  have u128 : Pow2 16 := ⟨4, rfl⟩
  have np : (declNzUsize t).align = t.ptr := by
    rcases ht.ptr with h | h | h <;> simp [declNzUsize, h, sameAs, declNz, Lay.prim, exprToType, ht.a64]
  have pp : Pow2 t.ptr := by
    rcases ht.ptr with h | h | h <;> rw [h] <;> assumption
  cases p with
  | unit | phantomData | phantomPinned => exact prim_full .unit
  | cVoid => exact absurd rfl hp
  | usize | isize | constPtr | mutPtr => exact prim_full .usize
  | atomicIsize | atomicUsize | atomicPtr =>
    have : primAlign t .usize = t.ptr := ht.aptr
    have h := prim_full (t := t) .usize
    rw [this] at h
    exact h
  | ordering => exact prim_full (.uint .w8)
  | bool | atomicBool => exact key 1 u8 rfl rfl rfl rfl
  | f32 => exact key 4 u32 rfl ht.af32 rfl rfl
  | ownedFd | borrowedFd => exact key 4 u32 rfl ht.a32 rfl rfl
  | f64 => exact key 8 u64 rfl ht.af64 (by simp [decl, sameAs, declU, Lay.prim, ht.a64, exprToType]) rfl
  | nonZeroUsize | nonZeroIsize | nonNull | ref | refMut | fnPtr => exact key t.ptr pp rfl ht.aptr (by simpa [decl, sameAs] using np) rfl
  | uint w | nonZeroU w | int w | nonZeroI w | atomicI w | atomicU w =>
    cases w
    · exact key 1 u8 rfl (by simp [primAlign, hw, Width.bytes]) rfl rfl
    · exact key 2 u16 rfl (by simp [primAlign, hw, Width.bytes]) rfl rfl
    · exact key 4 u32 rfl (by simp [primAlign, hw, Width.bytes]) rfl rfl
    · exact key 8 u64 rfl (by simp [primAlign, hw, Width.bytes])
        (by simp [decl, sameAs, declU, declNz, declAtomicI, Lay.prim, ht.a64, exprToType]) rfl
    · exact key 16 u128 rfl (by simp [primAlign, hw, Width.bytes])
        (by simp [decl, sameAs, declU, declNz, declAtomicI, Lay.prim, ht.a128, exprToType]) rfl

end Verif.Layout.CType
