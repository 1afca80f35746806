import Mathlib.Order.Interval.Finset.Nat
import Verif.Layout.Optimal
import Verif.Props.Layout
import Verif.Props.Sum

/-! Property C64. -/
namespace Verif.Props.Optimal
open Verif.Layout Verif.Sum Verif.Layout.Optimal Verif.Props.Layout

/-- A way to lay out fields in `n` bytes: each field has an aligned offset inside, fields do not overlap, and the size is a multiple of
each alignment (so that arrays work). -/
structure Placed (pl : List (Nat × Lay)) (n : Nat) : Prop where
  aligned : ∀ p ∈ pl, p.1 % p.2.align = 0 ∧ p.2.align ∣ n
  inside : ∀ p ∈ pl, p.1 + p.2.size ≤ n
  apart : pl.Pairwise fun p q => p.1 + p.2.size ≤ q.1 ∨ q.1 + q.2.size ≤ p.1 ∨ p.2.size = 0 ∨ q.2.size = 0

/-- Rust types: alignments are powers of two, sizes multiples of them. -/
def Rusty (f : Lay) : Prop := Pow2 f.align ∧ f.align ∣ f.size

theorem placed_sum {pl : List (Nat × Lay)} {n : Nat} (h : Placed pl n) : (pl.map (·.2.size)).sum ≤ n := by
  have key : ∀ pl : List (Nat × Lay), pl.Pairwise (fun p q => p.1 + p.2.size ≤ q.1 ∨ q.1 + q.2.size ≤ p.1 ∨ p.2.size = 0 ∨ q.2.size = 0) →
      (∀ p ∈ pl, p.1 + p.2.size ≤ n) → ∃ s : Finset Nat, s ⊆ Finset.range n ∧ s.card = (pl.map (·.2.size)).sum ∧
        ∀ k ∈ s, ∃ p ∈ pl, p.1 ≤ k ∧ k < p.1 + p.2.size := by
    intro pl
    induction pl with
    | nil => exact fun _ _ => ⟨∅, by simp, by simp, by simp⟩
    | cons p pl ih =>
      intro hp hi
      rw [List.pairwise_cons] at hp
      obtain ⟨s, hs, hc, hm⟩ := ih hp.2 fun q hq => hi q (List.mem_cons_of_mem _ hq)
      have hin := hi p (List.mem_cons_self ..)
      refine ⟨Finset.Ico p.1 (p.1 + p.2.size) ∪ s, ?_, ?_, ?_⟩
      · intro k hk
        rw [Finset.mem_union, Finset.mem_Ico] at hk
        rcases hk with hk | hk
        · rw [Finset.mem_range]; omega
        · exact hs hk
      · rw [Finset.card_union_of_disjoint, Nat.card_Ico, hc]
        · simp
        · rw [Finset.disjoint_left]
          intro k hk hks
          rw [Finset.mem_Ico] at hk
          obtain ⟨q, hq, h1, h2⟩ := hm k hks
          have := hp.1 q hq
          omega
      · intro k hk
        rw [Finset.mem_union, Finset.mem_Ico] at hk
        rcases hk with hk | hk
        · exact ⟨p, List.mem_cons_self .., hk.1, hk.2⟩
        · obtain ⟨q, hq, h⟩ := hm k hk
          exact ⟨q, List.mem_cons_of_mem _ hq, h⟩
  obtain ⟨s, hs, hc, _⟩ := key pl h.apart h.inside
  have := Finset.card_le_card hs
  rw [Finset.card_range] at this
  omega

theorem cEnd_sorted (fs : List Lay) (hf : ∀ f ∈ fs, Rusty f) (hs : fs.Pairwise fun f g => g.align ≤ f.align) :
    ∀ off, (∀ f ∈ fs, f.align ∣ off) → cEnd off fs = off + (fs.map (·.size)).sum := by
  induction fs with
  | nil => intro off _; simp [cEnd]
  | cons f fs ih =>
    intro off ho
    rw [List.pairwise_cons] at hs
    have hfp := (hf f (List.mem_cons_self ..)).1.pos
    have e : alignUp off f.align = off := by
      obtain ⟨k, rfl⟩ := ho f (List.mem_cons_self ..)
      unfold alignUp
      have : (f.align * k + f.align - 1) / f.align = k := by
        apply Nat.div_eq_of_lt_le
        · rw [Nat.mul_comm]; omega
        · rw [Nat.add_mul, Nat.one_mul, Nat.mul_comm k]; omega
      rw [this, Nat.mul_comm]
    simp only [cEnd, e]
    rw [ih (fun g hg => hf g (List.mem_cons_of_mem _ hg)) hs.2]
    · simp only [List.map_cons, List.sum_cons]; omega
    · intro g hg
      have hg1 := (hf g (List.mem_cons_of_mem _ hg)).1
      have hd : g.align ∣ f.align := hg1.dvd_of_le (hf f (List.mem_cons_self ..)).1 (hs.1 g hg)
      exact Nat.dvd_add (Nat.dvd_trans hd (ho f (List.mem_cons_self ..))) (Nat.dvd_trans hd (hf f (List.mem_cons_self ..)).2)

theorem cAlign_mem (fs : List Lay) (hf : ∀ f ∈ fs, Rusty f) : cAlign fs = 1 ∨ ∃ f ∈ fs, cAlign fs = f.align := by
  induction fs with
  | nil => exact .inl rfl
  | cons f fs ih =>
    have hp := (hf f (List.mem_cons_self ..)).1.pos
    rcases ih fun g hg => hf g (List.mem_cons_of_mem _ hg) with h | ⟨g, hg, h⟩
    · refine .inr ⟨f, List.mem_cons_self .., ?_⟩
      simp only [cAlign, h]; omega
    · by_cases hle : g.align ≤ f.align
      · refine .inr ⟨f, List.mem_cons_self .., ?_⟩
        simp only [cAlign, h]; omega
      · refine .inr ⟨g, List.mem_cons_of_mem _ hg, ?_⟩
        simp only [cAlign, h]; omega

theorem alignUp_le {n a m : Nat} (ha : 0 < a) (hd : a ∣ m) (h : n ≤ m) : alignUp n a ≤ m := by
  obtain ⟨k, rfl⟩ := hd
  unfold alignUp
  have h1 : (n + a - 1) / a ≤ k := by
    have : (n + a - 1) / a < k + 1 := by
      rw [Nat.div_lt_iff_lt_mul ha, Nat.add_mul, Nat.one_mul, Nat.mul_comm k]; omega
    omega
  rw [Nat.mul_comm a]
  exact Nat.mul_le_mul_right a h1

/-- Fields in order of decreasing alignment are accepted, whatever layout rustc chooses. -/
theorem C64_sorted_accepted (fs : List Lay) (hf : ∀ f ∈ fs, Rusty f) (hs : fs.Pairwise fun f g => g.align ≤ f.align)
    (pl : List (Nat × Lay)) (n : Nat) (hp : Placed pl n) (hpl : (pl.map (·.2)).Perm fs) : structOptimal fs n = true := by
  have h0 : ∀ f ∈ fs, 0 < f.align := fun f h => (hf f h).1.pos
  simp only [structOptimal, decide_eq_true_eq]
  rw [(C04_size_align fs h0).1, cStructSize, cEnd_sorted fs hf hs 0 fun f _ => Nat.dvd_zero _, Nat.zero_add]
  have hsum : (fs.map (·.size)).sum ≤ n := by
    have h1 := placed_sum hp
    have h2 : (pl.map (·.2.size)) = (pl.map (·.2)).map (·.size) := by rw [List.map_map]; rfl
    rw [h2, (hpl.map _).sum_nat] at h1
    exact h1
  rcases cAlign_mem fs hf with h | ⟨f, hm, h⟩
  · rw [h]; exact alignUp_le (by omega) (Nat.one_dvd _) hsum
  · rw [h]
    refine alignUp_le (h0 f hm) ?_ hsum
    have := hpl.mem_iff.2 hm
    rw [List.mem_map] at this
    obtain ⟨p, hp1, rfl⟩ := this
    exact (hp.aligned p hp1).2

/-- So the advice of the error message can be followed: every struct has an order of its fields that is accepted. -/
theorem C64_some_order_accepted (fs : List Lay) (hf : ∀ f ∈ fs, Rusty f) : ∃ gs, gs.Perm fs ∧
    ∀ pl n, Placed pl n → (pl.map (·.2)).Perm fs → structOptimal gs n = true := by
  let le : Lay → Lay → Bool := fun f g => decide (g.align ≤ f.align)
  have hperm := List.mergeSort_perm fs le
  refine ⟨fs.mergeSort le, hperm, fun pl n hp hpl => ?_⟩
  refine C64_sorted_accepted _ (fun f h => hf f (hperm.mem_iff.1 h)) ?_ pl n hp (hpl.trans hperm.symm)
  have := List.pairwise_mergeSort (le := le) (fun a b c h1 h2 => by simp only [le, decide_eq_true_eq] at *; omega)
    (fun a b => by simp only [le, Bool.or_eq_true, decide_eq_true_eq]; omega) fs
  exact this.imp fun h => by simpa [le] using h

/-- **C64 (partial).**  A struct that is checked and accepted cannot be made smaller by reordering its fields, if rustc's own layout
cannot.  Missing: generic structs are not checked (below), and rustc does not promise anything about its layout. -/
theorem C64_accepted_minimal_partial (fs : List Lay) (n : Nat) (h : structAccepted false 0 false fs n = true)
    (hn : ∀ gs : List Lay, gs.Perm fs → n ≤ (structOf gs).size) (gs : List Lay) (hg : gs.Perm fs) :
    (structOf fs).size ≤ (structOf gs).size := by
  simp only [structAccepted, structOptimal, Bool.or_eq_true, Bool.not_eq_true', decide_eq_true_eq] at h
  have := hn gs hg
  rcases h with h | h
  · simp at h
  · omega

/-- And with rustc's order (fields by decreasing alignment), it is accepted exactly if it cannot be made smaller. -/
theorem C64_accepted_iff (fs : List Lay) (hf : ∀ f ∈ fs, Rusty f) (rs : List Lay) (hr : rs.Perm fs)
    (hs : rs.Pairwise fun f g => g.align ≤ f.align) :
    structAccepted false 0 false fs (structOf rs).size = true ↔ ∀ gs : List Lay, gs.Perm fs → (structOf fs).size ≤ (structOf gs).size := by
  have hmin : ∀ gs : List Lay, gs.Perm fs → (structOf rs).size ≤ (structOf gs).size := by
    intro gs hg
    have hfg : ∀ f ∈ gs, Pow2 f.align := fun f h => (hf f (hg.mem_iff.1 h)).1
    have hd := C04_fields_disjoint gs hfg
    have hfr : ∀ f ∈ rs, Rusty f := fun f h => hf f (hr.mem_iff.1 h)
    have hmap : ∀ (c : Nat) (l : List Lay), (cPlace c l).map (·.2) = l := by
      intro c l
      induction l generalizing c with
      | nil => rfl
      | cons f l ih => simp [cPlace, ih]
    have halign : (structOf gs).align ∣ (structOf gs).size := by
      have h0 : ∀ f ∈ gs, 0 < f.align := fun f h => (hfg f h).pos
      rw [(C04_size_align gs h0).1, (C04_size_align gs h0).2, cStructSize, alignUp]
      exact Nat.dvd_mul_left _ _
    have pl : Placed (cPlace 0 gs) (structOf gs).size := by
      refine ⟨fun p hp => ?_, fun p hp => (hd.2 p.1 p.2 hp).2.2, hd.1.imp fun h => .inl h⟩
      have := hd.2 p.1 p.2 hp
      exact ⟨this.1, Nat.dvd_trans this.2.1 halign⟩
    have := C64_sorted_accepted rs hfr hs _ _ pl (by rw [hmap]; exact hg.trans hr.symm)
    simpa [structOptimal] using this
  constructor
  · exact fun h gs hg => C64_accepted_minimal_partial fs _ h hmin gs hg
  · intro h
    simp only [structAccepted, structOptimal, Bool.or_eq_true, decide_eq_true_eq]
    exact .inr (h rs hr)

/-- `(u8, u16, u8)` is rejected, `(u16, u8, u8)` is accepted. -/
example : structAccepted false 0 false [Ty.u8.lay, Ty.u16.lay, Ty.u8.lay] (structOf [Ty.u16.lay, Ty.u8.lay, Ty.u8.lay]).size = false ∧
    structAccepted false 0 false [Ty.u16.lay, Ty.u8.lay, Ty.u8.lay] (structOf [Ty.u16.lay, Ty.u8.lay, Ty.u8.lay]).size = true := by decide +kernel
example : Placed [(2, Ty.u8.lay), (0, Ty.u16.lay), (3, Ty.u8.lay)] 4 := by
  refine ⟨by decide +kernel, by decide +kernel, ?_⟩
  simp [Ty.u8, Ty.u16, Ty.lay, Lay.prim]

/-- Everything else is accepted whatever its layout: `no_opt`, generic parameters, or an explicit alignment turn the check off, and nothing else does. -/
theorem C64_checked_iff (noOpt : Bool) (generics : Nat) (reprAlign : Bool) (fs : List Lay) (n : Nat) :
    structAccepted noOpt generics reprAlign fs n = true ↔ noOpt = true ∨ 0 < generics ∨ reprAlign = true ∨ (structOf fs).size ≤ n := by
  cases noOpt <;> cases reprAlign <;> by_cases h : generics = 0 <;> simp [structAccepted, structOptimal, h] <;> omega

/-- Refuted: with a generic parameter (a lifetime, say) the sub-optimal struct is accepted without `no_opt`. -/
theorem C64_generic_refuted : structAccepted false 1 false [Ty.u8.lay, Ty.u16.lay, Ty.u8.lay] 4 = true ∧
    (structOf [Ty.u16.lay, Ty.u8.lay, Ty.u8.lay]).size < (structOf [Ty.u8.lay, Ty.u16.lay, Ty.u8.lay]).size := by decide +kernel

/-! ### Enums -/

/-- The size of a `#[repr(u8)]` enum (Rust reference: a union of `repr(C)` structs that start with the tag). -/
def reprU8Size (vs : List Lay) : Nat :=
  alignUp ((vs.map fun v => cEnd 0 [Ty.u8.lay, v]).foldr max 1) (cAlign vs)

/-- The size of a `#[repr(C)]` enum: an `int` tag, then a union. -/
def reprCSize (vs : List Lay) : Nat := cStructSize [Ty.u32.lay, (nestUnion Lay.unit vs)]

theorem build_two (a b : Ty) : build [a, b] = .node (.leaf a) (.leaf b) := by
  rw [build]
  simp only [List.length_cons, List.length_nil]
  simp only [show (1 < 0 + 1 + 1) from by decide, dite_true, show (0 + 1 + 1) / 2 = 1 from rfl, List.take, List.drop]
  congr 1 <;> (rw [build]; simp)

theorem build_three (a b c : Ty) : build [a, b, c] = .node (.leaf a) (.node (.leaf b) (.leaf c)) := by
  rw [build]
  simp only [List.length_cons, List.length_nil]
  simp only [show (1 < 0 + 1 + 1 + 1) from by decide, dite_true, show (0 + 1 + 1 + 1) / 2 = 1 from rfl, List.take, List.drop]
  rw [build_two]
  congr 1; rw [build]; simp

theorem build_five (a b c d e : Ty) : build [a, b, c, d, e] = .node (.node (.leaf a) (.leaf b)) (.node (.leaf c) (.node (.leaf d) (.leaf e))) := by
  rw [build]
  simp only [List.length_cons, List.length_nil]
  simp only [show (1 < 0 + 1 + 1 + 1 + 1 + 1) from by decide, dite_true, show (0 + 1 + 1 + 1 + 1 + 1) / 2 = 2 from rfl, List.take, List.drop]
  rw [build_two, build_three]

/-- An enum of two variants is never larger than the same enum with `#[repr(u8)]`, and it is accepted exactly if it needs no tag of its own. -/
theorem C64_enum_two (a b : Ty) (ga : a.lay.Good) (gb : b.lay.Good) (hs : max a.lay.size b.lay.size % max a.lay.align b.lay.align = 0) :
    (build [a, b]).ty.lay.size ≤ reprU8Size [a.lay, b.lay] ∧
    (enumOptimal [a, b] (reprU8Size [a.lay, b.lay]) = true ↔ (provider a.lay b.lay).det.isNicheTrick = true) := by
  have hA := (ga.align.max gb.align).pos
  have hpa := ga.align.pos
  have hpb := gb.align.pos
  have e0 : alignUp 0 1 = 0 := by decide
  have e1 : ∀ {x : Nat}, 0 < x → alignUp 1 x = x := fun hx => by rw [← nextMul_eq hx, nextMul_one hx]
  have hsz : reprU8Size [a.lay, b.lay] = max a.lay.align b.lay.align + max a.lay.size b.lay.size := by
    simp only [reprU8Size, List.map, List.foldr, cEnd, cAlign]
    simp only [show Ty.u8.lay.size = 1 from rfl, show Ty.u8.lay.align = 1 from rfl, e0, Nat.zero_add, e1 hpa, e1 hpb]
    have hm : max a.lay.align (max b.lay.align 1) = max a.lay.align b.lay.align := by omega
    rw [hm]
    have hd : max a.lay.align b.lay.align ∣ max a.lay.align b.lay.align + max a.lay.size b.lay.size :=
      Nat.dvd_add (Nat.dvd_refl _) (Nat.dvd_of_mod_eq_zero hs)
    apply Nat.le_antisymm
    · exact alignUp_le hA hd (by omega)
    · obtain ⟨k, hk⟩ := Nat.dvd_of_mod_eq_zero hs
      have hlt : max a.lay.size b.lay.size + 1 ≤ max (a.lay.align + a.lay.size) (max (b.lay.align + b.lay.size) 1) := by omega
      rw [hk] at hlt ⊢
      generalize max a.lay.align b.lay.align = A at *
      generalize max (a.lay.align + a.lay.size) (max (b.lay.align + b.lay.size) 1) = M at *
      unfold alignUp
      have : k + 1 ≤ (M + A - 1) / A := by
        rw [Nat.le_div_iff_mul_le hA, Nat.add_mul, Nat.one_mul, Nat.mul_comm k]; omega
      calc A + A * k = (k + 1) * A := by rw [Nat.add_mul, Nat.one_mul, Nat.mul_comm k]; omega
        _ ≤ _ := Nat.mul_le_mul_right A this
  obtain ⟨_, h1, h2⟩ := Verif.Props.Sum.C13_size a.lay b.lay ga gb
  have hl : (build [a, b]).ty.lay.size = (resultLay a.lay b.lay).size := by rw [build_two]; rfl
  simp only [enumOptimal, decide_eq_true_eq, hl, hsz]
  cases ht : (provider a.lay b.lay).det.isNicheTrick with
  | true => have := h1 ht; exact ⟨by omega, by simp only [iff_true]; omega⟩
  | false => have := h2 ht; exact ⟨by omega, by simp only [Bool.false_eq_true, iff_false]; omega⟩

example : enumOptimal [.ref, .unit] (reprU8Size [Ty.ref.lay, Ty.unit.lay]) = true ∧
    enumOptimal [.u8, .u8] (reprU8Size [Ty.u8.lay, Ty.u8.lay]) = false := by
  simp only [enumOptimal, build_two]; decide +kernel

/-- Refuted: an enum of five variants is larger than with `#[repr(u8)]`: 12 bytes instead of 8.  (`#[repr(stabby)]` accepts it.) -/
theorem C64_enum_larger_refuted : (build [.array .u16 3, .unit, .u16, .u32, .unit]).ty.lay.size = 12 ∧
    reprU8Size [(Ty.array .u16 3).lay, Ty.unit.lay, Ty.u16.lay, Ty.u32.lay, Ty.unit.lay] = 8 := by
  rw [build_five]; decide +kernel

/-- Refuted: `has_optimal_layout` is documented to say whether the enum is smaller than with `#[repr(C)]`; for two variants of `u8` it
says no. -/
theorem C64_enum_doc_refuted : enumOptimal [.u8, .u8] (reprU8Size [Ty.u8.lay, Ty.u8.lay]) = false ∧
    (build [.u8, .u8]).ty.lay.size < reprCSize [Ty.u8.lay, Ty.u8.lay] := by
  simp only [enumOptimal, build_two]; decide +kernel

def maxSize (vs : List Ty) : Nat := (vs.map fun v => v.lay.size).foldr max 0
def maxAlign (vs : List Ty) : Nat := (vs.map fun v => v.lay.align).foldr max 0

theorem max_append (l r : List Nat) : (l ++ r).foldr max 0 = max (l.foldr max 0) (r.foldr max 0) := by
  induction l with
  | nil => simp
  | cons a l ih => simp only [List.cons_append, List.foldr_cons, ih]; omega

def height : Tree → Nat
  | .leaf _ => 0
  | .node l r => max (height l) (height r) + 1

theorem build_height (vs : List Ty) (k : Nat) (h : vs.length ≤ 2 ^ k) : height (build vs) ≤ k := by
  induction k generalizing vs with
  | zero =>
    rw [build, dif_neg (by omega)]; exact Nat.le_refl _
  | succ k ih =>
    rw [build]
    split
    · rw [Nat.pow_succ] at h
      have h1 := ih (vs.take (vs.length / 2)) (by rw [List.length_take]; omega)
      have h2 := ih (vs.drop (vs.length / 2)) (by rw [List.length_drop]; omega)
      simp only [height]; omega
    · exact Nat.zero_le _

/-- What is left: each level of nesting adds at most one unit of alignment, so an enum of at most `2 ^ k` variants takes at most the
largest payload and `k` alignment units. -/
theorem C64_enum_bound (vs : List Ty) (hne : vs ≠ []) (ha : ∀ v ∈ vs, 0 < v.lay.align) (k : Nat) (hk : vs.length ≤ 2 ^ k) :
    (build vs).ty.lay.size ≤ maxSize vs + k * maxAlign vs ∧ (build vs).ty.lay.align = maxAlign vs := by
  have det1 : ∀ d : Det, d.lay.size ≤ 1 := by
    intro d
    induction d with
    | bit => exact Nat.le_refl _
    | endd => exact Nat.zero_le _
    | valueIsErr o v t ih => exact ih
    | bitIsErr o m => exact Nat.zero_le _
    | not d ih => exact ih
  have nm1 : ∀ n a, 0 < a → n ≤ 1 → nextMul n a ≤ a := by
    intro n a ha hn
    rcases Nat.le_one_iff_eq_zero_or_eq_one.1 hn with rfl | rfl
    · simp [nextMul]
    · by_cases h1 : a = 1
      · subst h1; decide
      · have : 1 % a = 1 := Nat.mod_eq_of_lt (by omega)
        simp only [nextMul, this]; simp; omega
  have key : ∀ t : Tree, (∀ v ∈ t.leaves, 0 < v.lay.align) →
      t.ty.lay.size ≤ maxSize t.leaves + height t * maxAlign t.leaves ∧ t.ty.lay.align = maxAlign t.leaves := by
    intro t
    induction t with
    | leaf t => intro _; simp [Tree.ty, Tree.leaves, maxSize, maxAlign, height]
    | node l r ihl ihr =>
      intro hv
      simp only [Tree.leaves, List.mem_append] at hv
      obtain ⟨sl, al⟩ := ihl fun v h => hv v (.inl h)
      obtain ⟨sr, ar⟩ := ihr fun v h => hv v (.inr h)
      have pos : ∀ t : Tree, (∀ v ∈ t.leaves, 0 < v.lay.align) → 0 < maxAlign t.leaves := by
        intro t
        induction t with
        | leaf t => intro h; have := h t (by simp [Tree.leaves]); simp only [Tree.leaves, maxAlign, List.map, List.foldr]; omega
        | node l r ihl _ =>
          intro h
          have := ihl fun v hv => h v (by simp [Tree.leaves, hv])
          simp only [Tree.leaves, maxAlign, List.map_append, max_append] at this ⊢
          omega
      have pl := pos l fun v h => hv v (.inl h)
      have hA : maxAlign (Tree.node l r).leaves = max (maxAlign l.leaves) (maxAlign r.leaves) := by
        simp only [Tree.leaves, maxAlign, List.map_append, max_append]
      have hS : maxSize (Tree.node l r).leaves = max (maxSize l.leaves) (maxSize r.leaves) := by
        simp only [Tree.leaves, maxSize, List.map_append, max_append]
      have hal : (Tree.node l r).ty.lay.align = max (maxAlign l.leaves) (maxAlign r.leaves) := by
        simp only [Tree.ty, Ty.lay, resultLay, resAlign, al, ar]
      have hsz : (Tree.node l r).ty.lay.size = detSize l.ty.lay r.ty.lay + max l.ty.lay.size r.ty.lay.size := rfl
      refine ⟨?_, hal.trans hA.symm⟩
      have hd : detSize l.ty.lay r.ty.lay ≤ max (maxAlign l.leaves) (maxAlign r.leaves) := by
        have : resAlign l.ty.lay r.ty.lay = max (maxAlign l.leaves) (maxAlign r.leaves) := by simp only [resAlign, al, ar]
        rw [detSize, this]
        exact nm1 _ _ (by omega) (det1 _)
      rw [hsz, hA, hS, height, Nat.add_mul, Nat.one_mul]
      generalize hAA : max (maxAlign l.leaves) (maxAlign r.leaves) = A at *
      have b1 : height l * maxAlign l.leaves ≤ max (height l) (height r) * A := Nat.mul_le_mul (by omega) (by omega)
      have b2 : height r * maxAlign r.leaves ≤ max (height l) (height r) * A := Nat.mul_le_mul (by omega) (by omega)
      omega
  have := key (build vs) (by rw [build_leaves vs hne]; exact ha)
  rw [build_leaves vs hne] at this
  exact ⟨Nat.le_trans this.1 (Nat.add_le_add_left (Nat.mul_le_mul_right _ (build_height vs k hk)) _), this.2⟩

example : (build [.array .u16 3, .unit, .u16, .u32, .unit]).ty.lay.size ≤ 6 + 3 * 4 ∧
    maxSize [.array .u16 3, .unit, .u16, .u32, .unit] = 6 ∧ maxAlign [.array .u16 3, .unit, .u16, .u32, .unit] = 4 := by
  rw [build_five]; decide +kernel

end Verif.Props.Optimal
