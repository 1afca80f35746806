import Verif.Layout.CTypeLemmas
import Verif.Props.Platform

/-! C76: `CType`, the C type that stands for a type, has its size and alignment, and room for its data. -/
namespace Verif.Props.CType
open Verif.Layout Verif.Layout.Platform Verif.Layout.CType
open Verif.Props.Platform (x64 i686)

/-! ### Layout -/

mutual
/-- The types C76 is about.  Members of unions and payloads of enums are of size 0 only if their alignment is 1; `repr(tag)` enums have the size
and the alignment they would have as `repr(C, tag)`: otherwise their `ID` panics (enums.rs:289-298).  `c_void` is never held by value. -/
def WF (t : Target) : Ty → Prop
  | .prim p => p ≠ .cVoid
  | .struct fs => WFs t fs
  | .aligned n fs => Pow2 n ∧ WFs t fs
  | .union fs => WFs t fs ∧ ((lay t (.union fs)).1 = 0 → (lay t (.union fs)).2 = 1)
  | .enum isC tag vs => WFs t vs ∧ ((lay t (.union vs)).1 = 0 → (lay t (.union vs)).2 = 1) ∧
      (isC = false → lay t (.enum false tag vs) = lay t (.enum true tag vs))
  | .array _ e => WF t e
  | .storage _ a => Pow2 a
  | .like e => WF t e
  | .noNiches _ _ => False
def WFs (t : Target) : List Ty → Prop
  | [] => True
  | f :: fs => WF t f ∧ WFs t fs
end

mutual
theorem lay_ok {t : Target} (ht : Natural t) : ∀ ty, WF t ty → Ok (lay t ty)
  | .prim p, _ => by rw [lay]; exact prim_ok ht p
  | .struct fs, h => by rw [lay]; rw [WF] at h; exact structLay_ok ⟨0, rfl⟩ (lays_ok ht fs h)
  | .aligned n fs, h => by rw [lay]; rw [WF] at h; exact structLay_ok h.1 (lays_ok ht fs h.2)
  | .union fs, h => by rw [lay]; rw [WF] at h; exact unionLay_ok (lays_ok ht fs h.1)
  | .enum true tag vs, h => by
    rw [WF] at h; rw [lay]
    refine structLay_ok ⟨0, rfl⟩ fun f hf => ?_
    simp only [List.mem_cons, List.not_mem_nil, or_false] at hf
    rcases hf with rfl | rfl
    · exact prim_ok ht tag
    · exact unionLay_ok (lays_ok ht vs h.1)
  | .enum false tag vs, h => by
    rw [WF] at h; rw [lay]
    refine unionLay_ok fun f hf => ?_
    simp only [List.mem_cons, List.mem_map] at hf
    rcases hf with rfl | ⟨v, hv, rfl⟩
    · exact structLay_ok ⟨0, rfl⟩ fun f hf => by
        simp only [List.mem_singleton] at hf; subst hf; exact prim_ok ht tag
    · refine structLay_ok ⟨0, rfl⟩ fun f hf => ?_
      simp only [List.mem_cons, List.not_mem_nil, or_false] at hf
      rcases hf with rfl | rfl
      · exact prim_ok ht tag
      · exact lays_ok ht vs h.1 _ hv
  | .array n e, h => by
    rw [lay]; rw [WF] at h
    have := lay_ok ht e h
    exact ⟨this.pow, Nat.dvd_mul_left_of_dvd this.dvd n⟩
  | .storage s a, h => by
    rw [lay]; rw [WF] at h
    refine structLay_ok ⟨0, rfl⟩ fun f hf => ?_
    simp only [List.mem_singleton] at hf
    subst hf
    rw [chunkLay_eq ht h, (chunk_full ht h).lay]
    split
    · exact ⟨⟨0, rfl⟩, Nat.one_dvd _⟩
    · exact ⟨h, Nat.dvd_mul_left _ _⟩
  | .like e, h => by rw [lay]; rw [WF] at h; exact lay_ok ht e h
  | .noNiches _ _, h => by rw [WF] at h; exact h.elim
theorem lays_ok {t : Target} (ht : Natural t) : ∀ fs, WFs t fs → ∀ l ∈ lays t fs, Ok l
  | [], _ => by simp [lays]
  | f :: fs, h => by
    rw [WFs] at h
    rw [lays]
    intro l hl
    rcases List.mem_cons.1 hl with rfl | hl
    · exact lay_ok ht f h.1
    · exact lays_ok ht fs h.2 l hl
end

/-- What unions and payloads become. -/
theorem chunk_union {t : Target} (ht : Natural t) {l : Nat × Nat} (h : Ok l) (h0 : l.1 = 0 → l.2 = 1) : Full t (chunk l.1 l.2) l.1 l.2 := by
  have := chunk_full ht (s := l.1) h.pow
  rw [Nat.div_mul_cancel h.dvd] at this
  split at this
  · rename_i hz
    have hs : l.1 = 0 := by have := Nat.div_mul_cancel h.dvd; rw [hz] at this; omega
    rw [h0 hs]
    rw [h0 hs] at this
    exact this
  · exact this

mutual
/-- On targets where integers are aligned to their size, the `CType` of a type has its size and alignment. -/
theorem C76_layout {t : Target} (ht : Natural t) : ∀ ty, WF t ty → lay t (ctype t ty) = lay t ty
  | .prim p, h => by rw [WF] at h; rw [ctype, (ctypePrim_full ht h).lay, lay]
  | .struct fs, h => by rw [WF] at h; rw [ctype, lay, lay, layouts ht fs h]
  | .aligned n fs, h => by rw [ctype]
  | .union fs, h => by
    rw [WF] at h
    have ho := unionLay_ok (lays_ok ht fs h.1)
    rw [lay] at h
    rw [ctype, (chunk_union ht ho h.2).lay, lay]
  | .enum isC tag vs, h => by
    rw [WF] at h
    have ho := unionLay_ok (lays_ok ht vs h.1)
    have e : lay t (ctype t (.enum isC tag vs)) = lay t (.enum true tag vs) := by
      have h2 := h.2.1
      rw [lay] at h2
      rw [ctype, lay, lays, lays, lays, (chunk_union ht ho h2).lay, lay, lay]
    rw [e]
    cases isC with
    | true => rfl
    | false => exact (h.2.2 rfl).symm
  | .array n e, h => by rw [WF] at h; rw [ctype, lay, lay, C76_layout ht e h]
  | .storage s a, h => by
    rw [WF] at h
    rw [ctype, lay, lays, lays, chunkCType_eq ht, lay, chunkLay_eq ht h]
  | .like e, h => by rw [WF] at h; rw [ctype, lay, C76_layout ht e h]
  | .noNiches _ _, h => by rw [WF] at h; exact h.elim
theorem layouts {t : Target} (ht : Natural t) : ∀ fs, WFs t fs → lays t (ctypes t fs) = lays t fs
  | [], _ => by rw [ctypes]
  | f :: fs, h => by rw [WFs] at h; rw [ctypes, lays, lays, C76_layout ht f h.1, layouts ht fs h.2]
end

theorem x64_natural : Natural x64 := ⟨.inr (.inr rfl), rfl, rfl, rfl, rfl, rfl, rfl, rfl⟩

/-- `enum { A(u8), B(u32) }`, as `repr(u8)` or `repr(C, u8)`. -/
def ab (isC : Bool) : Ty := .enum isC (.uint .w8) [.prim (.uint .w8), .prim (.uint .w32)]

example : WF x64 (.struct [.prim .bool, .union [.prim .f64, .array 3 (.prim .ref)], ab false, .storage 24 8]) ∧
    lay x64 (.struct [.prim .bool, .union [.prim .f64, .array 3 (.prim .ref)], ab false, .storage 24 8]) = (64, 8) := by
  refine ⟨⟨by simp [WF], ⟨⟨by simp [WF], by simp [WF], trivial⟩, by decide⟩, ⟨⟨by simp [WF], by simp [WF], trivial⟩, by decide, by decide⟩, ⟨3, rfl⟩, trivial⟩, by decide⟩

/-! ### Data -/

theorem natAlign_le {fs : List (Nat × Nat)} {f : Nat × Nat} (h : f ∈ fs) : f.2 ≤ natAlign fs := by
  induction fs with
  | nil => simp at h
  | cons g gs ih =>
    rw [natAlign]
    rcases List.mem_cons.1 h with rfl | h
    · omega
    · have := ih h; omega

theorem natMax_le {fs : List (Nat × Nat)} {f : Nat × Nat} (h : f ∈ fs) : f.1 ≤ natMax fs := by
  induction fs with
  | nil => simp at h
  | cons g gs ih =>
    rw [natMax]
    rcases List.mem_cons.1 h with rfl | h
    · omega
    · have := ih h; omega

/-- Data lies before the end of the fields. -/
theorem dataAt_lt {fs : List ((Nat × Nat) × (Nat → Bool))} (hf : ∀ f ∈ fs, 0 < f.1.2 ∧ ∀ i, f.2 i = true → i < f.1.1) :
    ∀ (c i : Nat), dataAt c fs i = true → i < natEnd c (fs.map Prod.fst) := by
  have mono : ∀ (gs : List (Nat × Nat)) (c : Nat), (∀ g ∈ gs, 0 < g.2) → c ≤ natEnd c gs := by
    intro gs
    induction gs with
    | nil => intro c _; exact Nat.le_refl _
    | cons g gs ih =>
      intro c h
      have h1 := ih (alignUp c g.2 + g.1) fun x hx => h x (List.mem_cons_of_mem _ hx)
      have h2 := le_alignUp (n := c) (h g (List.mem_cons_self ..))
      rw [natEnd]; omega
  induction fs with
  | nil => intro c i h; simp [dataAt] at h
  | cons f fs ih =>
    intro c i h
    have hm : ∀ g ∈ fs.map Prod.fst, 0 < g.2 := by
      intro g hg
      obtain ⟨x, hx, rfl⟩ := List.mem_map.1 hg
      exact (hf x (List.mem_cons_of_mem _ hx)).1
    rw [dataAt, Bool.or_eq_true, Bool.and_eq_true, decide_eq_true_eq] at h
    rw [List.map_cons, natEnd]
    rcases h with ⟨h1, h2⟩ | h
    · have := (hf f (List.mem_cons_self ..)).2 _ h2
      have := mono (fs.map Prod.fst) (alignUp c f.1.2 + f.1.1) hm
      omega
    · exact ih (fun g hg => hf g (List.mem_cons_of_mem _ hg)) _ _ h

theorem datas_fst (t : Target) : ∀ fs, (datas t fs).map Prod.fst = lays t fs
  | [] => by rw [datas, lays]; rfl
  | f :: fs => by rw [datas, lays, List.map_cons, datas_fst t fs]

theorem le_structLay {a : Nat} {fs : List (Nat × Nat)} (h : Pow2 a) (hf : ∀ f ∈ fs, Ok f) : natEnd 0 fs ≤ (structLay a fs).1 :=
  le_alignUp (h.max (natAlign_pow2 hf)).pos

mutual
/-- Data lies within the size. -/
theorem data_lt {t : Target} (ht : Natural t) : ∀ ty, WF t ty → ∀ i, data t ty i = true → i < (lay t ty).1
  | .prim p, _, i, h => by rw [data, decide_eq_true_eq] at h; rw [lay]; exact h
  | .struct fs, hw, i, h => by
    rw [WF] at hw; rw [data] at h; rw [lay]
    have := dataAt_lt (datas_lt ht fs hw) 0 i h
    rw [datas_fst] at this
    have := le_structLay (a := 1) ⟨0, rfl⟩ (lays_ok ht fs hw)
    omega
  | .aligned n fs, hw, i, h => by
    rw [WF] at hw; rw [data] at h; rw [lay]
    have := dataAt_lt (datas_lt ht fs hw.2) 0 i h
    rw [datas_fst] at this
    have := le_structLay hw.1 (lays_ok ht fs hw.2)
    omega
  | .union fs, hw, i, h => by
    rw [WF] at hw; rw [data, List.any_eq_true] at h; rw [lay]
    obtain ⟨f, hf, h⟩ := h
    have h1 := (datas_lt ht fs hw.1 f hf).2 i h
    have h2 : f.1 ∈ lays t fs := by rw [← datas_fst]; exact List.mem_map_of_mem hf
    have h3 := natMax_le h2
    have h4 : natMax (lays t fs) ≤ (unionLay (lays t fs)).1 := le_alignUp (natAlign_pow2 (lays_ok ht fs hw.1)).pos
    omega
  | .enum true tag vs, hw, i, h => by
    rw [WF] at hw; rw [data] at h; rw [lay]
    have hu := unionLay_ok (lays_ok ht vs hw.1)
    have := dataAt_lt (fun f hf => by
      simp only [List.mem_cons, List.not_mem_nil, or_false] at hf
      rcases hf with rfl | rfl
      · exact ⟨(prim_ok ht tag).pow.pos, fun i hi => by simpa using hi⟩
      · refine ⟨hu.pow.pos, fun i hi => ?_⟩
        obtain ⟨f, hf, h⟩ := List.any_eq_true.1 hi
        have h1 := (datas_lt ht vs hw.1 f hf).2 i h
        have h2 : f.1 ∈ lays t vs := by rw [← datas_fst]; exact List.mem_map_of_mem hf
        have h3 := natMax_le h2
        have h4 : natMax (lays t vs) ≤ (unionLay (lays t vs)).1 := le_alignUp (natAlign_pow2 (lays_ok ht vs hw.1)).pos
        dsimp only
        omega) 0 i h
    have h2 := le_structLay (a := 1) (fs := [(primSize t tag, primAlign t tag), unionLay (lays t vs)]) ⟨0, rfl⟩ (fun f hf => by
      simp only [List.mem_cons, List.not_mem_nil, or_false] at hf
      rcases hf with rfl | rfl
      · exact prim_ok ht tag
      · exact hu)
    simp only [List.map_cons, List.map_nil] at this
    omega
  | .enum false tag vs, hw, i, h => by
    rw [WF] at hw; rw [data, Bool.or_eq_true, decide_eq_true_eq, List.any_eq_true] at h; rw [lay]
    have hok : ∀ f ∈ (structLay 1 [(primSize t tag, primAlign t tag)] :: (lays t vs).map fun v => structLay 1 [(primSize t tag, primAlign t tag), v]), Ok f := by
      intro f hf
      simp only [List.mem_cons, List.mem_map] at hf
      rcases hf with rfl | ⟨v, hv, rfl⟩
      · exact structLay_ok ⟨0, rfl⟩ fun f hf => by simp only [List.mem_singleton] at hf; subst hf; exact prim_ok ht tag
      · refine structLay_ok ⟨0, rfl⟩ fun f hf => ?_
        simp only [List.mem_cons, List.not_mem_nil, or_false] at hf
        rcases hf with rfl | rfl
        · exact prim_ok ht tag
        · exact lays_ok ht vs hw.1 _ hv
    have hle : natMax (structLay 1 [(primSize t tag, primAlign t tag)] :: (lays t vs).map fun v => structLay 1 [(primSize t tag, primAlign t tag), v]) ≤
        (taggedLay (primSize t tag, primAlign t tag) (lays t vs)).1 := le_alignUp (natAlign_pow2 hok).pos
    rcases h with h | ⟨f, hf, h⟩
    · have := natMax_le (fs := structLay 1 [(primSize t tag, primAlign t tag)] :: (lays t vs).map fun v => structLay 1 [(primSize t tag, primAlign t tag), v]) (List.mem_cons_self ..)
      rw [structLay_one (prim_ok ht tag)] at this
      rw [structLay_one (prim_ok ht tag)] at hle
      dsimp only at this
      omega
    · have h2 : f.1 ∈ lays t vs := by rw [← datas_fst]; exact List.mem_map_of_mem hf
      have h3 := natMax_le (List.mem_cons_of_mem (structLay 1 [(primSize t tag, primAlign t tag)])
        (List.mem_map_of_mem (f := fun v => structLay 1 [(primSize t tag, primAlign t tag), v]) h2))
      have h4 := dataAt_lt (fun g hg => by
        simp only [List.mem_cons, List.not_mem_nil, or_false] at hg
        rcases hg with rfl | rfl
        · exact ⟨(prim_ok ht tag).pow.pos, fun i hi => by simp at hi⟩
        · exact datas_lt ht vs hw.1 g hf) 0 i h
      have h5 := le_structLay (a := 1) (fs := [(primSize t tag, primAlign t tag), f.1]) ⟨0, rfl⟩ (fun f' hf' => by
        simp only [List.mem_cons, List.not_mem_nil, or_false] at hf'
        rcases hf' with rfl | rfl
        · exact prim_ok ht tag
        · exact lays_ok ht vs hw.1 _ h2)
      simp only [List.map_cons, List.map_nil] at h4
      omega
  | .array n e, _, i, h => by rw [data, Bool.and_eq_true, decide_eq_true_eq] at h; rw [lay]; exact h.1
  | .storage s a, hw, i, h => by
    rw [data, decide_eq_true_eq] at h
    have hok := lay_ok ht _ hw
    rw [WF] at hw
    have hc : Ok (chunkLay t s a) := by
      rw [chunkLay_eq ht hw, (chunk_full ht hw).lay]
      split
      · exact ⟨⟨0, rfl⟩, Nat.one_dvd _⟩
      · exact ⟨hw, Nat.dvd_mul_left _ _⟩
    rw [lay, structLay_one hc]
    exact h
  | .like e, hw, i, h => by rw [WF] at hw; rw [data] at h; rw [lay]; exact data_lt ht e hw i h
  | .noNiches _ _, hw, _, _ => by rw [WF] at hw; exact hw.elim
theorem datas_lt {t : Target} (ht : Natural t) : ∀ fs, WFs t fs → ∀ f ∈ datas t fs, 0 < f.1.2 ∧ ∀ i, f.2 i = true → i < f.1.1
  | [], _ => by simp [datas]
  | f :: fs, h => by
    rw [WFs] at h
    rw [datas]
    intro g hg
    rcases List.mem_cons.1 hg with rfl | hg
    · exact ⟨(lay_ok ht f h.1).pow.pos, data_lt ht f h.1⟩
    · exact datas_lt ht fs h.2 g hg
end

mutual
/-- In `repr(tag)` enums, payloads are where they would be with `repr(C, tag)`. -/
def Same (t : Target) : Ty → Prop
  | .struct fs | .aligned _ fs | .union fs => Sames t fs
  | .enum isC tag vs => Sames t vs ∧
      (isC = false → ∀ v ∈ lays t vs, v.1 = 0 ∨ alignUp (primSize t tag) v.2 = alignUp (primSize t tag) (natAlign (lays t vs)))
  | .array _ e | .like e => Same t e
  | .prim _ | .storage _ _ | .noNiches _ _ => True
def Sames (t : Target) : List Ty → Prop
  | [] => True
  | f :: fs => Same t f ∧ Sames t fs
end

mutual
/-- Every byte that may hold data of a value is part of an integer of the `CType`, and so kept when this is copied; for `repr(tag)` enums only if
all payloads are where `repr(C, tag)` would put them. -/
theorem C76_data_partial {t : Target} (ht : Natural t) : ∀ ty, WF t ty → Same t ty → ∀ i, data t ty i = true → data t (ctype t ty) i = true
  | .prim p, hw, _, i, h => by
    rw [WF] at hw
    rw [ctype, (ctypePrim_full ht hw).data]
    rwa [data] at h
  | .struct fs, hw, hs, i, h => by
    rw [WF] at hw; rw [Same] at hs; rw [data] at h
    rw [ctype, data]
    exact datas_ctype ht fs hw hs 0 i h
  | .aligned n fs, _, _, i, h => by rw [ctype]; exact h
  | .union fs, hw, _, i, h => by
    have h1 := data_lt ht _ hw i h
    rw [WF] at hw
    have ho := unionLay_ok (lays_ok ht fs hw.1)
    rw [lay] at hw h1
    rw [ctype, (chunk_union ht ho hw.2).data, decide_eq_true_eq]
    exact h1
  | .enum isC tag vs, hw, hs, i, h => by
    rw [WF] at hw; rw [Same] at hs
    have ho := unionLay_ok (lays_ok ht vs hw.1)
    have h2 := hw.2.1
    rw [lay] at h2
    have hf := chunk_union ht ho h2
    have hto := prim_ok ht tag
    -- the tag comes first, the payload after it
    have goal : ∀ i, (i < primSize t tag ∨ (alignUp (primSize t tag) (unionLay (lays t vs)).2 ≤ i ∧
        i - alignUp (primSize t tag) (unionLay (lays t vs)).2 < (unionLay (lays t vs)).1)) →
        data t (ctype t (.enum isC tag vs)) i = true := by
      intro i h
      rw [ctype, data, datas, datas, datas, hf.lay, lay, dataAt, dataAt, dataAt]
      simp only [alignUp_zero hto.pow.pos, Nat.zero_le, decide_true, Bool.true_and, Nat.sub_zero, Nat.zero_add, Bool.or_false, Bool.or_eq_true,
        Bool.and_eq_true, decide_eq_true_eq, hf.data]
      rw [data, decide_eq_true_eq]
      exact h
    cases isC with
    | true =>
      rw [data] at h
      simp only [dataAt, alignUp_zero hto.pow.pos, Nat.zero_le, decide_true, Bool.true_and, Nat.sub_zero, Nat.zero_add, Bool.or_false,
        Bool.or_eq_true, Bool.and_eq_true, decide_eq_true_eq, List.any_eq_true] at h
      apply goal
      rcases h with h | ⟨h1, f, hf, h⟩
      · exact .inl h
      · refine .inr ⟨h1, ?_⟩
        have h5 := (datas_lt ht vs hw.1 f hf).2 _ h
        have h6 : f.1 ∈ lays t vs := by rw [← datas_fst]; exact List.mem_map_of_mem hf
        have h3 := natMax_le h6
        have h4 : natMax (lays t vs) ≤ (unionLay (lays t vs)).1 := le_alignUp (natAlign_pow2 (lays_ok ht vs hw.1)).pos
        omega
    | false =>
      rw [data, Bool.or_eq_true, decide_eq_true_eq, List.any_eq_true] at h
      apply goal
      rcases h with h | ⟨f, hf, h⟩
      · exact .inl h
      · simp only [dataAt, alignUp_zero hto.pow.pos, Nat.zero_le, decide_true, Bool.and_false, Nat.zero_add, Bool.or_false,
          Bool.false_or, Bool.and_eq_true, decide_eq_true_eq] at h
        have h5 := (datas_lt ht vs hw.1 f hf).2 _ h.2
        have h6 : f.1 ∈ lays t vs := by rw [← datas_fst]; exact List.mem_map_of_mem hf
        have h3 := natMax_le h6
        have h4 : natMax (lays t vs) ≤ (unionLay (lays t vs)).1 := le_alignUp (natAlign_pow2 (lays_ok ht vs hw.1)).pos
        rcases hs.2 rfl _ h6 with h7 | h7
        · omega
        · rw [h7] at h h5
          refine .inr ⟨h.1, ?_⟩
          show i - alignUp (primSize t tag) (natAlign (lays t vs)) < _
          omega
  | .array n e, hw, hs, i, h => by
    rw [WF] at hw; rw [Same] at hs
    rw [data, Bool.and_eq_true] at h
    rw [ctype, data, C76_layout ht e hw, Bool.and_eq_true]
    exact ⟨h.1, C76_data_partial ht e hw hs _ h.2⟩
  | .storage s a, hw, _, i, h => by
    rw [WF] at hw
    rw [data, decide_eq_true_eq, chunkLay_eq ht hw] at h
    have hf := chunk_full ht (s := s) hw
    rw [hf.lay] at h
    rw [ctype, data, datas, datas, chunkCType_eq ht, dataAt, dataAt, hf.lay]
    have : 0 < if s / a = 0 then 1 else a := by
      split
      · omega
      · exact hw.pos
    simp only [alignUp_zero this, hf.data, Nat.zero_le, decide_true, Bool.true_and, Nat.sub_zero, Bool.or_false, decide_eq_true_eq]
    exact h
  | .like e, hw, hs, i, h => by
    rw [WF] at hw; rw [Same] at hs; rw [data] at h; rw [ctype]; exact C76_data_partial ht e hw hs i h
  | .noNiches _ _, hw, _, _, _ => by rw [WF] at hw; exact hw.elim
theorem datas_ctype {t : Target} (ht : Natural t) : ∀ fs, WFs t fs → Sames t fs → ∀ c i, dataAt c (datas t fs) i = true →
    dataAt c (datas t (ctypes t fs)) i = true
  | [], _, _, c, i, h => by rw [datas, dataAt] at h; simp at h
  | f :: fs, hw, hs, c, i, h => by
    rw [WFs] at hw; rw [Sames] at hs
    rw [datas, dataAt, Bool.or_eq_true, Bool.and_eq_true] at h
    rw [ctypes, datas, dataAt, Bool.or_eq_true, Bool.and_eq_true, C76_layout ht f hw.1]
    rcases h with ⟨h1, h2⟩ | h
    · exact .inl ⟨h1, C76_data_partial ht f hw.1 hs.1 _ h2⟩
    · exact .inr (datas_ctype ht fs hw.2 hs.2 _ i h)
end

example : WF x64 (.struct [.prim .bool, ab true]) ∧ Same x64 (.struct [.prim .bool, ab true]) ∧
    data x64 (.struct [.prim .bool, ab true]) 8 = true ∧ data x64 (ctype x64 (.struct [.prim .bool, ab true])) 2 = false :=
  ⟨⟨by simp [WF], ⟨⟨by simp [WF], by simp [WF], trivial⟩, by decide, by decide⟩, trivial⟩, ⟨trivial, ⟨⟨trivial, trivial, trivial⟩, by simp⟩, trivial⟩,
    by decide, by decide⟩

/-- Refuted: `#[stabby] #[repr(u8)] enum { A(u8), B(u32) }` passes the check of sizes and alignments, but the `u8` of `A` lies in what is padding of
its `CType`. -/
theorem C76_tagged_refuted : WF x64 (ab false) ∧ lay x64 (ctype x64 (ab false)) = lay x64 (ab false) ∧ data x64 (ab false) 1 = true ∧
    data x64 (ctype x64 (ab false)) 1 = false :=
  ⟨⟨⟨by simp [WF], by simp [WF], trivial⟩, by decide, by decide⟩, by decide, by decide, by decide⟩

/-! ### Primitive types -/

/-- On targets whose pointers and small integers are aligned to their size, the `CType`s of primitive types have their sizes and alignments
exactly if the larger integers are aligned to their size as well: `CType` is the integer of the right *alignment*. -/
theorem C76_prim_iff (t : Target) (hp : t.ptr = 2 ∨ t.ptr = 4 ∨ t.ptr = 8) (h16 : t.a16 = 2) (h32 : t.a32 = 4) (hap : t.aptr = t.ptr)
    (hf32 : t.af32 = 4) (h64 : t.a64 = 4 ∨ t.a64 = 8) (h128 : t.a128 = 4 ∨ t.a128 = 8 ∨ t.a128 = 16) :
    (∀ p, p ≠ .cVoid → lay t (ctype t (.prim p)) = lay t (.prim p)) ↔ t.a64 = 8 ∧ t.a128 = 16 ∧ t.af64 = 8 := by
  constructor
  · intro h
    have e64 : t.a64 = 8 := by
      rcases h64 with e | e
      · have := h (.uint .w64) (by simp)
        simp [ctype, ctypePrim, decl, declU, Lay.prim, e, exprToType, CType.asUint, lay, primSize, Width.bytes] at this
      · exact e
    refine ⟨e64, ?_, ?_⟩
    · rcases h128 with e | e | e
      · have := h (.uint .w128) (by simp)
        simp [ctype, ctypePrim, decl, declU, Lay.prim, e, exprToType, CType.asUint, lay, primSize, Width.bytes] at this
      · have := h (.uint .w128) (by simp)
        simp [ctype, ctypePrim, decl, declU, Lay.prim, e, exprToType, CType.asUint, lay, primSize, Width.bytes] at this
      · exact e
    · have := h .f64 (by simp)
      simp [ctype, ctypePrim, decl, declU, sameAs, Lay.prim, e64, exprToType, CType.asUint, lay, primSize, primAlign, Width.bytes, Target.alignU] at this
      exact this.symm
  · rintro ⟨a, b, c⟩ p hp'
    exact C76_layout ⟨hp, h16, h32, a, b, hap, hf32, c⟩ (.prim p) hp'

example : x64.a64 = 8 ∧ i686.a64 = 4 ∧ i686.ptr = 4 ∧ i686.aptr = i686.ptr := by decide

/-- Refuted: on `i686` the `CType` of `u64` is `u32`, of half the size, that of a struct with two `f64` has 8 bytes, and a union with an
`AtomicU64` (aligned to 8) becomes a tuple aligned to 4. -/
theorem C76_i686_refuted : ctype i686 (.prim (.uint .w64)) = .prim (.uint .w32) ∧
    lay i686 (.struct [.prim .f64, .prim .f64]) = (16, 4) ∧ lay i686 (ctype i686 (.struct [.prim .f64, .prim .f64])) = (8, 4) ∧
    lay i686 (.union [.prim (.atomicU .w64)]) = (8, 8) ∧ lay i686 (ctype i686 (.union [.prim (.atomicU .w64)])) = (8, 4) :=
  ⟨rfl, by decide, by decide, by decide, by decide⟩

/-- Refuted: where `u128` is aligned to 8, as on x86-64 before Rust 1.77, its `CType` is `u64`. -/
theorem C76_u128_refuted (t : Target) (h : t.a128 = 8) : ctype t (.prim (.uint .w128)) = .prim (.uint .w64) := by
  simp [ctype, ctypePrim, decl, declU, Lay.prim, h, exprToType, CType.asUint]

/-- Refuted: the `CType` of a union of which all members have size 0 is `()`, whatever its alignment. -/
theorem C76_empty_union_refuted : lay x64 (.union [.array 0 (.prim .usize)]) = (0, 8) ∧
    lay x64 (ctype x64 (.union [.array 0 (.prim .usize)])) = (0, 1) := ⟨by decide, by decide⟩

/-- Refuted: `StableLike<T, NoNiches<..>>` has the `CType` `()`, whatever its size. -/
theorem C76_no_niches_refuted (t : Target) (s a : Nat) : lay t (ctype t (.like (.noNiches s a))) = (0, 1) ∧ lay t (.like (.noNiches s a)) = (s, a) :=
  ⟨by rw [ctype, ctype, lay]; rfl, by rw [lay, lay]⟩

/-! ### Registers -/

mutual
/-- No `repr(align)` struct, which is its own `CType`; tags are integers. -/
def Plain : Ty → Prop
  | .struct fs | .union fs => Plains fs
  | .enum _ tag fs => tag ≠ .f32 ∧ tag ≠ .f64 ∧ Plains fs
  | .array _ e | .like e => Plain e
  | .aligned _ _ => False
  | .prim _ | .storage _ _ | .noNiches _ _ => True
def Plains : List Ty → Prop
  | [] => True
  | f :: fs => Plain f ∧ Plains fs
end

theorem addToArray_floats (fuel : Nat) : ∀ n e lsb stack, floats lsb = false → floats stack = false → floats (CType.addToArray fuel n e lsb stack) = false := by
  induction fuel with
  | zero => intro n e lsb stack h _; exact h
  | succ fuel ih =>
    intro n e lsb stack h1 h2
    rw [CType.addToArray]
    split
    · exact h1
    split
    · refine ih _ _ _ _ ?_ ?_
      · cases e <;> simp [floats, floatss, h1, h2]
      · simp [floats, floatss, h2]
    · exact ih _ _ _ _ h1 (by simp [floats, floatss, h2])

theorem asUint_floats (a : Nat) : floats (CType.asUint a) = false := by
  rcases asUint_cases a with ⟨w, h⟩ | h <;> rw [h] <;> simp [floats, floatss]

theorem chunk_floats (s a : Nat) : floats (chunk s a) = false := addToArray_floats _ _ _ _ _ (by simp [floats]) (asUint_floats a)

theorem ctypePrim_floats (t : Target) (p : Prim) : floats (ctypePrim t p) = false := by
  cases p <;> first | exact asUint_floats _ | simp [ctypePrim, floats]

theorem chunkCType_floats (t : Target) (s a : Nat) : floats (chunkCType t s a) = false := by
  refine addToArray_floats _ _ _ _ _ (by simp [floats]) ?_
  rcases asUint_cases a with ⟨w, h⟩ | h <;> rw [uintCType, h]
  · exact ctypePrim_floats t _
  · simp [floats, floatss]

mutual
/-- No `CType` has floats, whatever the target. -/
theorem C76_no_float (t : Target) : ∀ ty, Plain ty → floats (ctype t ty) = false
  | .prim p, _ => by rw [ctype]; exact ctypePrim_floats t p
  | .struct fs, h => by rw [Plain] at h; rw [ctype, floats]; exact no_floats t fs h
  | .aligned _ _, h => by rw [Plain] at h; exact h.elim
  | .union fs, _ => by rw [ctype]; exact chunk_floats _ _
  | .enum isC tag vs, h => by
    rw [Plain] at h
    rw [ctype, floats, floatss, floatss, floatss, chunk_floats, floats]
    simp [h.1, h.2.1]
  | .array n e, h => by rw [Plain] at h; rw [ctype, floats]; exact C76_no_float t e h
  | .storage s a, _ => by rw [ctype, floats, floatss, floatss, chunkCType_floats]; rfl
  | .like e, h => by rw [Plain] at h; rw [ctype]; exact C76_no_float t e h
  | .noNiches _ _, _ => by rw [ctype, floats]; simp
theorem no_floats (t : Target) : ∀ fs, Plains fs → floatss (ctypes t fs) = false
  | [], _ => by rw [ctypes, floatss]
  | f :: fs, h => by rw [Plains] at h; rw [ctypes, floatss, no_floats t fs h.2, C76_no_float t f h.1]; rfl
end

/-- Refuted: so a function with a parameter `f64`, or a struct of floats, does not pass it where a C function declared with the `CType` does:
C ABIs pass floats in other registers than integers. -/
theorem C76_float_refuted : Plain (.struct [.prim .f64, .prim .f32]) ∧ floats (.struct [.prim .f64, .prim .f32]) = true ∧
    floats (ctype x64 (.struct [.prim .f64, .prim .f32])) = false ∧ ctype x64 (.prim .f64) = .prim (.uint .w64) :=
  ⟨⟨trivial, trivial, trivial⟩, by decide, by decide, rfl⟩

/-- On any target, also those that align integers to less than their size, the storage of a `Result` is as many integers as its size and alignment say. -/
theorem C76_chunk {t : Target} (h : ∀ w : Width, Ok (w.bytes, t.alignU w)) {s a : Nat} (ha : Pow2 a) :
    lay t (chunk s a) = chunkLay t s a ∧ lay t (CType.asUint a) = uintLay t a := by
  have key : Full t (CType.asUint a) (uintLay t a).1 (uintLay t a).2 ∧ Ok (uintLay t a) := by
    unfold CType.asUint uintLay
    by_cases h1 : a = 1
    · subst h1; exact ⟨prim_full (.uint .w8), h .w8⟩
    by_cases h2 : a = 2
    · subst h2; exact ⟨prim_full (.uint .w16), h .w16⟩
    by_cases h4 : a = 4
    · subst h4; exact ⟨prim_full (.uint .w32), h .w32⟩
    by_cases h8 : a = 8
    · subst h8; exact ⟨prim_full (.uint .w64), h .w64⟩
    by_cases h16 : a = 16
    · subst h16; exact ⟨prim_full (.uint .w128), h .w128⟩
    have hp := ha.pos
    have hs : structLay a [(a, 1)] = (a, a) := by
      simp only [structLay, natEnd, natAlign, alignUp_zero Nat.one_pos, Nat.zero_add, Nat.max_self]
      have : max a 1 = a := by omega
      rw [this, alignUp_self hp (Nat.dvd_refl _)]
    simp only [h1, h2, h4, h8, h16, if_false, hs]
    refine ⟨⟨?_, ?_⟩, ha, Nat.dvd_refl _⟩
    · simp only [lay, lays, structLay, natEnd, natAlign, primSize, primAlign, Width.bytes, Target.alignU, alignUp_zero Nat.one_pos, Nat.zero_add, Nat.mul_one, Nat.max_self]
      have : max a 1 = a := by omega
      rw [this, alignUp_self hp (Nat.dvd_refl _)]
    · intro i
      simp only [data, datas, dataAt, lay, primSize, primAlign, Width.bytes, Target.alignU, alignUp_zero Nat.one_pos, Nat.sub_zero, Nat.mod_one]
      simp
  refine ⟨?_, key.1.lay⟩
  have := (arrayOf_full key.2.pow key.2.dvd key.1 (s / a)).lay
  rw [chunk, this, chunkLay]
  split
  · rename_i h0; rw [h0, Nat.zero_mul]
  · rfl
example : (∀ w : Width, Ok (w.bytes, i686.alignU w)) ∧ chunkLay i686 24 8 = (24, 4) := by
  refine ⟨fun w => ?_, by decide⟩
  cases w
  · exact ⟨⟨0, rfl⟩, by decide⟩
  · exact ⟨⟨1, rfl⟩, by decide⟩
  · exact ⟨⟨2, rfl⟩, by decide⟩
  · exact ⟨⟨2, rfl⟩, by decide⟩
  · exact ⟨⟨4, rfl⟩, by decide⟩

/-- What holds data: in an array every byte that does in its element, of an opaque type all its bytes and none beyond; the latter has no floats. -/
theorem C76_data_bytes (t : Target) : (∀ n e k j, k < n → j < (lay t e).1 → data t (.array n e) (k * (lay t e).1 + j) = data t e j) ∧
    ∀ s a, (∀ i, data t (.noNiches s a) i = true ↔ i < (lay t (.noNiches s a)).1) ∧ floats (.noNiches s a) = false := by
  refine ⟨fun n e k j hk hj => ?_, fun s a => ⟨fun i => by simp [data, lay], by simp [floats]⟩⟩
  have h1 : k * (lay t e).1 + j < n * (lay t e).1 := by
    have := Nat.mul_le_mul_right (lay t e).1 (show k + 1 ≤ n from hk)
    rw [Nat.add_mul, Nat.one_mul] at this
    omega
  rw [data, decide_eq_true h1, Bool.true_and, Nat.add_comm, Nat.add_mul_mod_self_right, Nat.mod_eq_of_lt hj]
example : data x64 (.array 2 (.struct [.prim .bool, .prim (.uint .w32)])) 8 = true ∧ data x64 (.array 2 (.struct [.prim .bool, .prim (.uint .w32)])) 9 = false := by
  decide

end Verif.Props.CType
