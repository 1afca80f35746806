import Verif.Layout.Spec
import Verif.Layout.Padding

namespace Verif.Layout

/-! ### Numbers -/

theorem nextMul_eq {n a : Nat} (ha : 0 < a) : nextMul n a = alignUp n a := by
  unfold nextMul alignUp
  have hd := Nat.div_add_mod n a
  have hl := Nat.mod_lt n ha
  generalize hq : n / a = q at *
  generalize hr : n % a = r at *
  subst hd
  split
  · rename_i h
    subst h
    have : (a * q + 0 + a - 1) / a = q := by
      rw [Nat.div_eq_iff ha]; constructor
      · rw [Nat.mul_comm]; omega
      · rw [Nat.mul_comm]; omega
    rw [this, Nat.mul_comm]; omega
  · have : (a * q + r + a - 1) / a = q + 1 := by
      rw [Nat.div_eq_iff ha, Nat.add_mul, Nat.mul_comm q a]; omega
    rw [this, Nat.add_mul, Nat.mul_comm q a]; omega

theorem le_nextMul (n a : Nat) : n ≤ nextMul n a := by unfold nextMul; split <;> omega

theorem nextMul_mod {n a : Nat} (ha : 0 < a) : nextMul n a % a = 0 := by
  rw [nextMul_eq ha, alignUp, Nat.mul_mod_left]

theorem nextMul_self {n a : Nat} (h : n % a = 0) : nextMul n a = n := by simp [nextMul, h]

theorem nextMul_zero (a : Nat) : nextMul 0 a = 0 := by simp [nextMul]

theorem nextMul_one {a : Nat} (ha : 0 < a) : nextMul 1 a = a := by
  unfold nextMul
  split
  · rename_i h
    rcases Nat.lt_or_ge 1 a with h1 | h1
    · rw [Nat.mod_eq_of_lt h1] at h; omega
    · omega
  · rename_i h
    rcases Nat.lt_or_ge 1 a with h1 | h1
    · rw [Nat.mod_eq_of_lt h1]; omega
    · have : a = 1 := by omega
      subst this; simp at h

theorem nextMul_lt {n a : Nat} (ha : 0 < a) : nextMul n a < n + a := by
  unfold nextMul; split
  · omega
  · have := Nat.mod_lt n ha; omega

theorem Pow2.pos {a : Nat} (h : Pow2 a) : 0 < a := by obtain ⟨k, rfl⟩ := h; exact Nat.two_pow_pos k

theorem Pow2.max {a b : Nat} (ha : Pow2 a) (hb : Pow2 b) : Pow2 (max a b) := by
  rcases Nat.le_total a b with h | h
  · rwa [Nat.max_eq_right h]
  · rwa [Nat.max_eq_left h]

theorem Pow2.dvd_of_le {a b : Nat} (ha : Pow2 a) (hb : Pow2 b) (h : a ≤ b) : a ∣ b := by
  obtain ⟨j, rfl⟩ := ha; obtain ⟨k, rfl⟩ := hb
  exact Nat.pow_dvd_pow 2 ((Nat.pow_le_pow_iff_right (by decide)).1 h)

theorem Pow2.dvd_max_left {a b : Nat} (ha : Pow2 a) (hb : Pow2 b) : a ∣ Max.max a b :=
  ha.dvd_of_le (ha.max hb) (Nat.le_max_left _ _)
theorem Pow2.dvd_max_right {a b : Nat} (ha : Pow2 a) (hb : Pow2 b) : b ∣ Max.max a b :=
  hb.dvd_of_le (ha.max hb) (Nat.le_max_right _ _)

/-! ### Bytes -/

theorem byte_ext {a b : Byte} (h : ∀ i, i < 8 → a.getLsbD i = b.getLsbD i) : a = b :=
  BitVec.eq_of_getLsbD_eq h

theorem sub_lowBit_bits : ∀ v : Byte, ∀ b : Fin 8, (v - Mask.lowBit v).getLsbD b = true →
    v.getLsbD b = true ∧ (Mask.lowBit v).getLsbD b = false := by decide +kernel

theorem lowBit_bits : ∀ v : Byte, ∀ b : Fin 8, (Mask.lowBit v).getLsbD b = true → v.getLsbD b = true := by
  decide +kernel

theorem lowBit_ne_zero : ∀ v : Byte, v ≠ 0 → Mask.lowBit v ≠ 0 := by decide +kernel

theorem lowBit_eq_one : ∀ v : Byte, Mask.lowBit v = 1 → v.getLsbD 0 = true := by decide +kernel

theorem sub_lowBit_zero : ∀ v : Byte, (v - Mask.lowBit v).getLsbD 0 = false := by decide +kernel

theorem getLsbD_255 : ∀ b : Fin 8, (255 : Byte).getLsbD b = true := by decide

/-! ### Masks -/
namespace Mask

theorem bitOr_eq (a b : Mask) : a.bitOr b = a ++ b := by
  induction a with
  | nil => rfl
  | cons e r ih => simp [bitOr, ih]

theorem mem_shift {k : Mask} {o i : Nat} {v : Byte} : (i, v) ∈ k.shift o ↔ ∃ j, i = j + o ∧ (j, v) ∈ k := by
  induction k with
  | nil => simp [shift]
  | cons e r ih =>
    obtain ⟨p, w⟩ := e
    simp only [shift, List.mem_cons, Prod.mk.injEq, ih]
    constructor
    · rintro (⟨rfl, rfl⟩ | ⟨j, rfl, h⟩)
      · exact ⟨p, rfl, .inl ⟨rfl, rfl⟩⟩
      · exact ⟨j, rfl, .inr h⟩
    · rintro ⟨j, rfl, ⟨rfl, rfl⟩ | h⟩
      · exact .inl ⟨rfl, rfl⟩
      · exact .inr ⟨j, rfl, h⟩

theorem shift_zero (k : Mask) : k.shift 0 = k := by
  induction k with
  | nil => rfl
  | cons e r ih => obtain ⟨p, w⟩ := e; simp [shift, ih]

theorem shift_shift (k : Mask) (a b : Nat) : (k.shift a).shift b = k.shift (a + b) := by
  induction k with
  | nil => rfl
  | cons e r ih => obtain ⟨p, w⟩ := e; simp [shift, ih, Nat.add_assoc]

theorem shift_append (a b : Mask) (o : Nat) : shift (a ++ b) o = a.shift o ++ b.shift o := by
  induction a with
  | nil => rfl
  | cons e r ih => obtain ⟨p, w⟩ := e; simp [shift, ih]

theorem mem_padMask {n i : Nat} {v : Byte} : (i, v) ∈ padMask n ↔ i < n ∧ v = 255 := by
  induction n generalizing i with
  | zero => simp [padMask]
  | succ n ih =>
    simp only [padMask, List.mem_cons, Prod.mk.injEq, mem_shift, ih]
    constructor
    · rintro (⟨rfl, rfl⟩ | ⟨j, rfl, h, rfl⟩)
      · exact ⟨by omega, rfl⟩
      · exact ⟨by omega, rfl⟩
    · rintro ⟨h, rfl⟩
      rcases i with _ | i
      · exact .inl ⟨rfl, rfl⟩
      · exact .inr ⟨i, rfl, by omega, rfl⟩

/-- Offsets in `[lo, hi)`, all distinct; no entry is zero; an entry that has its lowest bit is a whole byte. -/
structure Good (k : Mask) (lo hi : Nat) : Prop where
  range : ∀ i v, (i, v) ∈ k → lo ≤ i ∧ i < hi
  nodup : (k.map Prod.fst).Nodup
  top : ∀ i v, (i, v) ∈ k → v ≠ 0 ∧ (v.getLsbD 0 = true → v = 255)

theorem Good.nil (lo hi : Nat) : Good [] lo hi := ⟨by simp, by simp, by simp⟩

theorem Good.mono {k : Mask} {lo hi lo' hi' : Nat} (h : Good k lo hi) (h1 : lo' ≤ lo) (h2 : hi ≤ hi') :
    Good k lo' hi' :=
  ⟨fun i v hm => by have := h.range i v hm; omega, h.nodup, h.top⟩

theorem Good.append {a b : Mask} {lo mid hi : Nat} (ha : Good a lo mid) (hb : Good b mid hi)
    (h1 : lo ≤ mid) (h2 : mid ≤ hi) : Good (a ++ b) lo hi := by
  refine ⟨?_, ?_, ?_⟩
  · intro i v hm
    rcases List.mem_append.1 hm with h | h
    · have := ha.range i v h; omega
    · have := hb.range i v h; omega
  · rw [List.map_append, List.nodup_append]
    refine ⟨ha.nodup, hb.nodup, ?_⟩
    intro x hx y hy
    obtain ⟨⟨i, v⟩, hm, rfl⟩ := List.mem_map.1 hx
    obtain ⟨⟨j, w⟩, hm', rfl⟩ := List.mem_map.1 hy
    have := ha.range i v hm; have := hb.range j w hm'
    simp only; omega
  · intro i v hm
    rcases List.mem_append.1 hm with h | h
    · exact ha.top i v h
    · exact hb.top i v h

theorem map_fst_shift (k : Mask) (o : Nat) : (k.shift o).map Prod.fst = (k.map Prod.fst).map (· + o) := by
  induction k with
  | nil => rfl
  | cons e r ih => obtain ⟨p, w⟩ := e; simp [shift, ih]

theorem nodup_map_add {l : List Nat} (o : Nat) (h : l.Nodup) : (l.map (· + o)).Nodup :=
  List.Pairwise.map (R := (· ≠ ·)) (S := (· ≠ ·)) (· + o) (fun a b hab => by omega) h

theorem Good.shift {k : Mask} {lo hi : Nat} (h : Good k lo hi) (o : Nat) :
    Good (k.shift o) (lo + o) (hi + o) := by
  refine ⟨?_, ?_, ?_⟩
  · intro i v hm
    obtain ⟨j, rfl, hj⟩ := mem_shift.1 hm
    have := h.range j v hj; omega
  · rw [map_fst_shift]
    exact nodup_map_add o h.nodup
  · intro i v hm
    obtain ⟨j, rfl, hj⟩ := mem_shift.1 hm
    exact h.top j v hj

theorem Good.pad (n : Nat) : Good (padMask n) 0 n := by
  refine ⟨?_, ?_, ?_⟩
  · intro i v hm; have := mem_padMask.1 hm; omega
  · induction n with
    | zero => simp [padMask]
    | succ n ih =>
      simp only [padMask, List.map_cons, map_fst_shift, List.nodup_cons]
      refine ⟨?_, nodup_map_add 1 ih⟩
      simp
  · intro i v hm; obtain ⟨_, rfl⟩ := mem_padMask.1 hm; exact ⟨by decide, fun _ => rfl⟩

theorem Good.padAt (n o : Nat) : Good ((padMask n).shift o) o (o + n) := by
  have := (Good.pad n).shift o
  rwa [Nat.zero_add, Nat.add_comm n o] at this

theorem byteAt_mem {k : Mask} {i : Nat} (h : k.byteAt i ≠ 0) : (i, k.byteAt i) ∈ k := by
  induction k with
  | nil => simp [byteAt] at h
  | cons e r ih =>
    obtain ⟨p, w⟩ := e
    unfold byteAt at h ⊢
    split
    · rename_i hp; subst hp; simp
    · rename_i hp; rw [if_neg hp] at h; exact List.mem_cons_of_mem _ (ih h)

theorem mem_bitAnd {a b : Mask} {i : Nat} {v : Byte} (h : (i, v) ∈ a.bitAnd b) :
    ∃ w, (i, w) ∈ a ∧ v = w &&& b.byteAt i ∧ v ≠ 0 := by
  induction a with
  | nil => simp [bitAnd] at h
  | cons e r ih =>
    obtain ⟨p, w⟩ := e
    unfold bitAnd at h
    split at h
    · obtain ⟨w', h1, h2⟩ := ih h; exact ⟨w', List.mem_cons_of_mem _ h1, h2⟩
    · rename_i hne
      rcases List.mem_cons.1 h with h | h
      · cases h; exact ⟨w, by simp, rfl, hne⟩
      · obtain ⟨w', h1, h2⟩ := ih h; exact ⟨w', List.mem_cons_of_mem _ h1, h2⟩

theorem bitAnd_fst_sublist (a b : Mask) : ((a.bitAnd b).map Prod.fst).Sublist (a.map Prod.fst) := by
  induction a with
  | nil => simp [bitAnd]
  | cons e r ih =>
    obtain ⟨p, w⟩ := e
    unfold bitAnd
    split
    · exact ih.cons _
    · exact ih.cons₂ _

theorem and_ne_zero_right {v w : Byte} (h : v &&& w ≠ 0) : w ≠ 0 := by
  rintro rfl; simp at h

theorem Good.bitAnd {a b : Mask} {lo hi lo' hi' : Nat} (ha : Good a lo hi) (hb : Good b lo' hi') :
    Good (a.bitAnd b) lo hi := by
  refine ⟨?_, List.Nodup.sublist (bitAnd_fst_sublist a b) ha.nodup, ?_⟩
  · intro i v hm
    obtain ⟨w, hw, _⟩ := mem_bitAnd hm
    exact ha.range i w hw
  · intro i v hm
    obtain ⟨w, hw, rfl, hne⟩ := mem_bitAnd hm
    refine ⟨hne, fun h0 => ?_⟩
    rw [BitVec.getLsbD_and, Bool.and_eq_true] at h0
    rw [(ha.top i w hw).2 h0.1, (hb.top i _ (byteAt_mem (and_ne_zero_right hne))).2 h0.2]
    rfl

theorem unused_bitAnd {a b : Mask} {i n : Nat} (h : (a.bitAnd b).Unused i n) : a.Unused i n ∧ b.Unused i n := by
  obtain ⟨v, hm, hb⟩ := h
  obtain ⟨w, hw, rfl, hne⟩ := mem_bitAnd hm
  rw [BitVec.getLsbD_and, Bool.and_eq_true] at hb
  exact ⟨⟨w, hw, hb.1⟩, ⟨_, byteAt_mem (and_ne_zero_right hne), hb.2⟩⟩

theorem unused_append {a b : Mask} {i n : Nat} : Unused (a ++ b) i n ↔ a.Unused i n ∨ b.Unused i n := by
  constructor
  · rintro ⟨v, hm, hb⟩
    rcases List.mem_append.1 hm with h | h
    · exact .inl ⟨v, h, hb⟩
    · exact .inr ⟨v, h, hb⟩
  · rintro (⟨v, hm, hb⟩ | ⟨v, hm, hb⟩)
    · exact ⟨v, List.mem_append_left _ hm, hb⟩
    · exact ⟨v, List.mem_append_right _ hm, hb⟩

theorem unused_shift {k : Mask} {o i n : Nat} : (k.shift o).Unused i n ↔ ∃ j, i = j + o ∧ k.Unused j n := by
  constructor
  · rintro ⟨v, hm, hb⟩
    obtain ⟨j, rfl, hj⟩ := mem_shift.1 hm
    exact ⟨j, rfl, v, hj, hb⟩
  · rintro ⟨j, rfl, v, hj, hb⟩
    exact ⟨v, mem_shift.2 ⟨j, rfl, hj⟩, hb⟩

theorem unused_shift_add {k : Mask} {o i n : Nat} : (k.shift o).Unused (i + o) n ↔ k.Unused i n := by
  rw [unused_shift]
  constructor
  · rintro ⟨j, h, hj⟩; have : i = j := by omega
    subst this; exact hj
  · intro h; exact ⟨i, rfl, h⟩

theorem unused_pad {n i b : Nat} (hb : b < 8) : (padMask n).Unused i b ↔ i < n := by
  constructor
  · rintro ⟨v, hm, _⟩; exact (mem_padMask.1 hm).1
  · intro h; exact ⟨255, mem_padMask.2 ⟨h, rfl⟩, getLsbD_255 ⟨b, hb⟩⟩

theorem not_unused_of_nodup {o : Nat} {v : Byte} {r : Mask} {n : Nat}
    (h : (((o, v) :: r : Mask).map Prod.fst).Nodup) : ¬ Mask.Unused r o n := by
  rintro ⟨w, hm, _⟩
  simp only [List.map_cons, List.nodup_cons] at h
  exact h.1 (List.mem_map.2 ⟨_, hm, rfl⟩)

theorem unused_cons {o : Nat} {v : Byte} {r : Mask} {i n : Nat} :
    Mask.Unused ((o, v) :: r) i n ↔ (i = o ∧ v.getLsbD n = true) ∨ Mask.Unused r i n := by
  constructor
  · rintro ⟨w, hm, hb⟩
    rcases List.mem_cons.1 hm with h | h
    · cases h; exact .inl ⟨rfl, hb⟩
    · exact .inr ⟨w, h, hb⟩
  · rintro (⟨rfl, hb⟩ | ⟨w, hm, hb⟩)
    · exact ⟨v, by simp, hb⟩
    · exact ⟨w, List.mem_cons_of_mem _ hm, hb⟩

theorem extractBit_cons (o : Nat) (v : Byte) (r : Mask) :
    extractBit ((o, v) :: r) = if v - lowBit v ≠ 0 then (o, v - lowBit v) :: r else r := rfl

theorem unused_extractBit {o : Nat} {v : Byte} {r : Mask} {i n : Nat} (hn : n < 8)
    (hd : (((o, v) :: r : Mask).map Prod.fst).Nodup)
    (h : (extractBit ((o, v) :: r)).Unused i n) :
    Mask.Unused ((o, v) :: r) i n ∧ ¬ (i = o ∧ (lowBit v).getLsbD n = true) := by
  rw [extractBit_cons] at h
  split at h
  · rw [unused_cons] at h
    rcases h with ⟨rfl, hb⟩ | h
    · obtain ⟨h1, h2⟩ := sub_lowBit_bits v ⟨n, hn⟩ hb
      refine ⟨unused_cons.2 (.inl ⟨rfl, h1⟩), ?_⟩
      simp only at h2
      simp [h2]
    · refine ⟨unused_cons.2 (.inr h), ?_⟩
      rintro ⟨rfl, _⟩
      exact not_unused_of_nodup hd h
  · refine ⟨unused_cons.2 (.inr h), ?_⟩
    rintro ⟨rfl, _⟩
    exact not_unused_of_nodup hd h

theorem Good.tail {e : Nat × Byte} {r : Mask} {lo hi : Nat} (h : Good (e :: r) lo hi) : Good r lo hi :=
  ⟨fun i v hm => h.range i v (List.mem_cons_of_mem _ hm),
   by have := h.nodup; simp only [List.map_cons, List.nodup_cons] at this; exact this.2,
   fun i v hm => h.top i v (List.mem_cons_of_mem _ hm)⟩

theorem Good.extractBit {k : Mask} {lo hi : Nat} (h : Good k lo hi) : Good k.extractBit lo hi := by
  cases k with
  | nil => exact h
  | cons e r =>
    obtain ⟨o, v⟩ := e
    rw [extractBit_cons]
    split
    · rename_i hne
      refine ⟨?_, ?_, ?_⟩
      · intro i w hm
        rcases List.mem_cons.1 hm with hm | hm
        · cases hm; exact h.range o v (by simp)
        · exact h.range i w (List.mem_cons_of_mem _ hm)
      · have := h.nodup; simpa using this
      · intro i w hm
        rcases List.mem_cons.1 hm with hm | hm
        · cases hm; refine ⟨hne, fun h0 => ?_⟩
          rw [sub_lowBit_zero v] at h0; cases h0
        · exact h.top i w (List.mem_cons_of_mem _ hm)
    · exact h.tail

theorem hasFreeByteAt_iff {k : Mask} {o : Nat} : k.hasFreeByteAt o = true ↔ (o, 255) ∈ k := by
  induction k with
  | nil => simp [hasFreeByteAt]
  | cons e r ih =>
    obtain ⟨p, w⟩ := e
    simp only [hasFreeByteAt, Bool.or_eq_true, Bool.and_eq_true, decide_eq_true_eq, ih, List.mem_cons,
      Prod.mk.injEq]
    constructor
    · rintro (⟨rfl, rfl⟩ | h)
      · exact .inl ⟨rfl, rfl⟩
      · exact .inr h
    · rintro (⟨rfl, rfl⟩ | h)
      · exact .inl ⟨rfl, rfl⟩
      · exact .inr h

theorem unused_of_free {k : Mask} {o n : Nat} (h : (o, (255 : Byte)) ∈ k) (hn : n < 8) : k.Unused o n :=
  ⟨255, h, getLsbD_255 ⟨n, hn⟩⟩

end Mask

/-! ### Forbidden values -/
namespace Fv

theorem forbids_byte {o : Nat} {v : Byte} {r : Fv} {m : Mem} :
    (Fv.byte o v r).Forbids m ↔ m o = v ∧ (r = .none ∨ r.Forbids m) := by
  cases r <;> simp [Forbids]

theorem forbids_congr {f : Fv} {m m' : Mem} (h : ∀ o ∈ f.offsets, m o = m' o) : f.Forbids m ↔ f.Forbids m' := by
  induction f with
  | none => simp [Forbids]
  | byte o v r ih =>
    rw [forbids_byte, forbids_byte, h o (by simp [offsets]), ih (fun o ho => h o (by simp [offsets, ho]))]
  | or a b iha ihb =>
    simp only [Forbids]
    rw [iha (fun o ho => h o (by simp [offsets, ho])), ihb (fun o ho => h o (by simp [offsets, ho]))]
  | range mn mx o => simp only [Forbids]; rw [h o (by simp [offsets])]

theorem forbids_shift {f : Fv} {k : Nat} {m : Mem} : (f.shift k).Forbids m ↔ f.Forbids (m.at k) := by
  induction f with
  | none => simp [Forbids, shift]
  | byte o v r ih =>
    rw [shift, forbids_byte, forbids_byte, ih, Mem.at, Nat.add_comm k o]
    cases r <;> simp [shift]
  | or a b iha ihb => simp only [Forbids, shift, iha, ihb]
  | range mn mx o => simp only [Forbids, shift, Mem.at, Nat.add_comm k o]

theorem offsets_shift (f : Fv) (k : Nat) : (f.shift k).offsets = f.offsets.map (· + k) := by
  induction f with
  | none => rfl
  | byte o v r ih => simp [shift, offsets, ih]
  | or a b iha ihb => simp [shift, offsets, iha, ihb]
  | range mn mx o => simp [shift, offsets]

theorem isBytes_shift {f : Fv} {k : Nat} (h : f.IsBytes) : (f.shift k).IsBytes := by
  induction f with
  | none => exact h
  | byte o v r ih => exact ih h
  | or a b => exact h.elim
  | range => exact h.elim

theorem wf_shift {f : Fv} {k : Nat} (h : f.WF) : (f.shift k).WF := by
  induction f with
  | none => exact h
  | byte o v r ih =>
    obtain ⟨h1, h2, h3⟩ := h
    refine ⟨isBytes_shift h1, ?_, ih h3⟩
    rw [offsets_shift]
    simp only [List.mem_map, not_exists, not_and]
    intro x hx hxo
    have : x = o := by omega
    subst this; exact h2 hx
  | or a b iha ihb => exact ⟨iha h.1, ihb h.2⟩
  | range => exact h

/-- A non-empty selection of bytes that, all together, are a forbidden value. -/
structure Picks (f : Fv) (l : List (Nat × Byte)) : Prop where
  sub : ∀ o v, (o, v) ∈ l → o ∈ f.offsets
  nodup : (l.map Prod.fst).Nodup
  forbidden : ∀ m : Mem, (∀ o v, (o, v) ∈ l → m o = v) → f.Forbids m

theorem selectOne_bytes {f : Fv} (h : f.WF) (hb : f.IsBytes) :
    (∀ o v, (o, v) ∈ f.selectOne → o ∈ f.offsets) ∧ (f.selectOne.map Prod.fst).Nodup ∧
    (∀ m : Mem, (∀ o v, (o, v) ∈ f.selectOne → m o = v) → f = .none ∨ f.Forbids m) := by
  induction f with
  | none => simp [selectOne]
  | byte o v r ih =>
    obtain ⟨h1, h2, h3⟩ := h
    obtain ⟨i1, i2, i3⟩ := ih h3 h1
    refine ⟨?_, ?_, ?_⟩
    · intro o' v' hm
      simp only [selectOne, List.mem_cons, Prod.mk.injEq] at hm
      rcases hm with ⟨rfl, rfl⟩ | hm
      · simp [offsets]
      · simp [offsets, i1 o' v' hm]
    · simp only [selectOne, List.map_cons, List.nodup_cons]
      refine ⟨?_, i2⟩
      intro hm
      obtain ⟨⟨o', v'⟩, hm', rfl⟩ := List.mem_map.1 hm
      exact h2 (i1 _ _ hm')
    · intro m hm
      right
      rw [forbids_byte]
      exact ⟨hm o v (by simp [selectOne]), i3 m (fun o' v' h' => hm o' v' (by simp [selectOne, h']))⟩
  | or a b => exact hb.elim
  | range => exact hb.elim

theorem selectOne_picks {f : Fv} (h : f.WF) (hne : f.selectOne ≠ []) : Picks f f.selectOne := by
  induction f with
  | none => simp [selectOne] at hne
  | byte o v r _ =>
    obtain ⟨h1, h2, h3⟩ := selectOne_bytes h h.1
    exact ⟨h1, h2, fun m hm => (h3 m hm).resolve_left (by simp)⟩
  | or a b iha _ =>
    have := iha h.1 (by simpa [selectOne] using hne)
    refine ⟨fun o v hm => ?_, this.nodup, fun m hm => .inl (this.forbidden m hm)⟩
    have := this.sub o v hm
    simp [offsets, this]
  | range mn mx o =>
    refine ⟨?_, by simp [selectOne], ?_⟩
    · intro o' v' hm; simp [selectOne] at hm; simp [offsets, hm]
    · intro m hm
      have : m o = mn := hm o mn (by simp [selectOne])
      refine ⟨?_, ?_⟩
      · rw [this]; exact BitVec.le_refl _
      · rw [this]; exact h

theorem selectFrom_bytes {f : Fv} {k : Mask} (h : f.WF) (hb : f.IsBytes) {l : List (Nat × Byte)}
    (hl : f.selectFrom k = .bytes l) : l = f.selectOne ∧ ∀ o ∈ f.offsets, (o, (255 : Byte)) ∈ k := by
  induction f generalizing l with
  | none => simp only [selectFrom, Sfv.bytes.injEq] at hl; subst hl; simp [selectOne, offsets]
  | byte o v r ih =>
    unfold selectFrom at hl
    split at hl
    · rename_i hf
      rw [Mask.hasFreeByteAt_iff] at hf
      simp only [Sfv.and] at hl
      cases hr : r.selectFrom k with
      | saturator => rw [hr] at hl; cases hl
      | bytes l' =>
        rw [hr] at hl
        simp only [Sfv.push, Sfv.bytes.injEq] at hl
        obtain ⟨h1, h2⟩ := ih h.2.2 h.1 hr
        subst hl; subst h1
        refine ⟨rfl, ?_⟩
        intro o' ho'
        rcases List.mem_cons.1 ho' with rfl | ho'
        · exact hf
        · exact h2 o' ho'
    · cases hl
  | or a b => exact hb.elim
  | range => exact hb.elim

theorem sfvOr_resolve (a b : Sfv) : (a.or b).resolve = if a.resolve = [] then b.resolve else a.resolve := by
  cases a with
  | saturator => simp [Sfv.or, Sfv.resolve]
  | bytes l => cases l <;> simp [Sfv.or, Sfv.resolve]

theorem selectFrom_picks {f : Fv} {k : Mask} (h : f.WF) (hne : (f.selectFrom k).resolve ≠ []) :
    Picks f (f.selectFrom k).resolve ∧ ∀ o v, (o, v) ∈ (f.selectFrom k).resolve → (o, (255 : Byte)) ∈ k := by
  induction f with
  | none => simp [selectFrom, Sfv.resolve] at hne
  | byte o v r _ =>
    cases hs : (Fv.byte o v r).selectFrom k with
    | saturator => rw [hs] at hne; simp [Sfv.resolve] at hne
    | bytes l =>
      obtain ⟨h1, h2⟩ := selectFrom_bytes (f := .byte o v r) h h.1 hs
      simp only [Sfv.resolve]
      rw [h1]
      have hp := selectOne_picks (f := .byte o v r) h (by simp [selectOne])
      exact ⟨hp, fun o' v' hm => h2 o' (hp.sub o' v' hm)⟩
  | or a b iha ihb =>
    simp only [selectFrom, sfvOr_resolve] at hne ⊢
    split
    · rename_i ha
      rw [if_pos ha] at hne
      obtain ⟨h1, h2⟩ := ihb h.2 hne
      exact ⟨⟨fun o v hm => by have := h1.sub o v hm; simp [offsets, this], h1.nodup,
        fun m hm => .inr (h1.forbidden m hm)⟩, h2⟩
    · rename_i ha
      obtain ⟨h1, h2⟩ := iha h.1 ha
      exact ⟨⟨fun o v hm => by have := h1.sub o v hm; simp [offsets, this], h1.nodup,
        fun m hm => .inl (h1.forbidden m hm)⟩, h2⟩
  | range mn mx o =>
    unfold selectFrom at hne ⊢
    split
    · rename_i hf
      rw [Mask.hasFreeByteAt_iff] at hf
      refine ⟨selectOne_picks (f := .range mn mx o) h (by simp [selectOne]), ?_⟩
      intro o' v' hm
      simp only [Sfv.resolve, List.mem_singleton, Prod.mk.injEq] at hm
      rw [hm.1]; exact hf
    · rename_i hf; rw [if_neg hf] at hne; simp [Sfv.resolve] at hne

end Fv

/-! ### Layouts -/

/-- What the soundness proofs need of a layout. -/
structure Lay.Good (t : Lay) : Prop where
  align : Pow2 t.align
  ub : t.ub.Good 0 t.size
  fvWF : t.fv.WF
  fvRange : ∀ o ∈ t.fv.offsets, o < t.size
  fvUsed : ∀ o ∈ t.fv.offsets, ∀ v, (o, v) ∉ t.ub

theorem SameUsed.byte {size : Nat} {ub : Mask} {m m' : Mem} (h : SameUsed size ub m m') {i : Nat}
    (hi : i < size) (hu : ∀ v, (i, v) ∉ ub) : m i = m' i := by
  apply byte_ext
  intro b hb
  exact h i hi b hb (by rintro ⟨v, hm, _⟩; exact hu v hm)

theorem SameUsed.refl (size : Nat) (ub : Mask) (m : Mem) : SameUsed size ub m m := fun _ _ _ _ _ => rfl

theorem SameUsed.symm {size : Nat} {ub : Mask} {m m' : Mem} (h : SameUsed size ub m m') : SameUsed size ub m' m :=
  fun i hi b hb hu => (h i hi b hb hu).symm

theorem SameUsed.trans {size : Nat} {ub : Mask} {m m' m'' : Mem} (h : SameUsed size ub m m')
    (h' : SameUsed size ub m' m'') : SameUsed size ub m m'' :=
  fun i hi b hb hu => (h i hi b hb hu).trans (h' i hi b hb hu)

theorem Lay.Good.forbids_congr {t : Lay} (g : t.Good) {m m' : Mem} (h : SameUsed t.size t.ub m m') :
    t.fv.Forbids m ↔ t.fv.Forbids m' :=
  Fv.forbids_congr fun o ho => h.byte (g.fvRange o ho) (g.fvUsed o ho)

end Verif.Layout
