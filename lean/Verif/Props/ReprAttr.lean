import Verif.Layout.Attr
import Verif.Props.Optimal

/-! Property C75. -/
namespace Verif.Props.ReprAttr
open Verif.Layout Verif.Layout.Attr Verif.Props.Layout
open Verif.Props.Optimal (Placed Rusty)

/-! ### What rustc does with `repr` (Rust reference, "Type layout") -/

/-- The alignment asked for. -/
def asked : List Item → Nat
  | [] => 1
  | .align n :: is => max n (asked is)
  | _ :: is => asked is

/-- The packing asked for. -/
def packing : List Item → Option Nat
  | [] => none
  | .packed n :: _ => some n
  | _ :: is => packing is

/-- Items that rustc accepts together on a struct. -/
structure Valid (is : List Item) : Prop where
  known : Item.other ∉ is
  align : ∀ n, .align n ∈ is → Pow2 n
  packed : ∀ n, .packed n ∈ is → Pow2 n ∧ packing is = some n
  apart : ∀ n m, .packed n ∈ is → .align m ∉ is
  alone : .transparent ∈ is → ∀ i ∈ is, i = .transparent

/-- The fields of a `repr(transparent)` struct: all but one are zero-sized and of alignment 1. -/
def OneField (fs : List Lay) : Prop := (fs.filter fun f => !(f.size == 0 && f.align == 1)).length ≤ 1

/-- A field of a packed struct. -/
def cap (is : List Item) (f : Lay) : Lay :=
  match packing is with
  | none => f
  | some p => { f with align := min p f.align }

/-- A layout that rustc may give to the struct: the offset of each field, the size and the alignment. -/
structure Compiled (is : List Item) (fs : List Lay) (offs : List Nat) (size al : Nat) : Prop where
  len : offs.length = fs.length
  align : al = max (asked is) (cAlign (fs.map (cap is)))
  /-- The C representation is fully determined. -/
  c : .c ∈ is → offs = (cPlace 0 (fs.map (cap is))).map (·.1) ∧ size = alignUp (cEnd 0 (fs.map (cap is))) al
  /-- Transparent structs are laid out like their only field. -/
  transparent : .transparent ∈ is → OneField fs ∧ size = (fs.map (·.size)).sum ∧ ∀ p ∈ offs.zip fs, p.2.size ≠ 0 → p.1 = 0
  /-- Otherwise rustc orders the fields as it likes. -/
  free : Placed (offs.zip (fs.map (cap is))) size ∧ al ∣ size

/-- The computed layout is the one of the compiled struct: same size, same alignment, and the fields are where the C layout used to compute
niches puts them. -/
structure Right (d : Lay) (fs : List Lay) (offs : List Nat) (size align : Nat) : Prop where
  size : d.size = size
  align : d.align = align
  offs : ∀ p ∈ offs.zip (cPlace 0 fs), p.2.2.size ≠ 0 → p.1 = p.2.1

/-- The alignment that the macro has seen. -/
def seen (attrs : List (List Item)) : Nat :=
  match pick attrs with
  | some (.align n) => n
  | _ => 1

/-- The attributes under which the macro's computation is that of rustc. -/
def Understood (attrs : List (List Item)) : Prop :=
  packing (emitted attrs) = none ∧ seen attrs = asked (emitted attrs) ∧ (.c ∈ emitted attrs ∨ .transparent ∈ emitted attrs)

/-! ### Lemmas -/

theorem packing_none {is : List Item} : packing is = none ↔ ∀ n, .packed n ∉ is := by
  induction is with
  | nil => simp [packing]
  | cons i is ih =>
    cases i with
    | packed n => simp only [packing, List.mem_cons, false_iff, reduceCtorEq]; intro h; exact h n (.inl rfl)
    | _ => simp [packing, ih]

theorem cap_none {is : List Item} (h : packing is = none) (fs : List Lay) : fs.map (cap is) = fs := by
  have : cap is = id := by funext f; simp [cap, h]
  rw [this, List.map_id]

theorem cAlign_pos (fs : List Lay) : 1 ≤ cAlign fs := by
  induction fs with
  | nil => exact Nat.le_refl _
  | cons f fs ih => simp only [cAlign]; omega

theorem cPlace_len (c : Nat) (fs : List Lay) : (cPlace c fs).length = fs.length := by
  induction fs generalizing c with
  | nil => rfl
  | cons f fs ih => simp [cPlace, ih]

theorem asked_pos (is : List Item) : 1 ≤ asked is := by
  induction is with
  | nil => exact Nat.le_refl _
  | cons i is ih => cases i <;> simp only [asked] <;> omega

theorem le_asked {is : List Item} {n : Nat} (h : .align n ∈ is) : n ≤ asked is := by
  induction is with
  | nil => simp at h
  | cons i is ih =>
    rcases List.mem_cons.1 h with rfl | h
    · simp only [asked]; omega
    · have := ih h
      cases i <;> simp only [asked] <;> omega

theorem asked_mem (is : List Item) : asked is = 1 ∨ .align (asked is) ∈ is := by
  induction is with
  | nil => exact .inl rfl
  | cons i is ih =>
    cases i with
    | align n =>
      simp only [asked]
      rcases ih with h | h
      · by_cases hn : n ≤ 1
        · left; omega
        · right; rw [h, Nat.max_eq_left (by omega)]; simp
      · right
        by_cases hn : n ≤ asked is
        · rw [Nat.max_eq_right hn]; exact List.mem_cons_of_mem _ h
        · rw [Nat.max_eq_left (by omega)]; simp
    | _ => simpa [asked] using ih

theorem asked_pow2 {is : List Item} (h : Valid is) : Pow2 (asked is) := by
  rcases asked_mem is with h1 | h1
  · rw [h1]; exact ⟨0, rfl⟩
  · exact h.align _ h1

theorem pick_align {attrs : List (List Item)} {n : Nat} (h : pick attrs = some (.align n)) : .align n ∈ emitted attrs := by
  unfold pick at h
  rw [List.findSome?_eq_some_iff] at h
  obtain ⟨l1, a, l2, rfl, ha, -⟩ := h
  have : a = [.align n] := by
    unfold parseAttr at ha; split at ha <;> simp_all
  subst this
  simp [emitted]

theorem pick_c {attrs : List (List Item)} (h : pick attrs = some .c ∨ pick attrs = none) : .c ∈ emitted attrs := by
  rcases h with h | h
  · unfold pick at h
    rw [List.findSome?_eq_some_iff] at h
    obtain ⟨l1, a, l2, rfl, ha, -⟩ := h
    have : a = [.c] := by
      unfold parseAttr at ha; split at ha <;> simp_all
    subst this
    simp [emitted]
  · simp [emitted, h]

theorem pick_transparent {attrs : List (List Item)} (h : pick attrs = some .transparent) : .transparent ∈ emitted attrs := by
  unfold pick at h
  rw [List.findSome?_eq_some_iff] at h
  obtain ⟨l1, a, l2, rfl, ha, -⟩ := h
  have : a = [.transparent] := by
    unfold parseAttr at ha; split at ha <;> simp_all
  subst this
  simp [emitted]

theorem alignUp_self {n a : Nat} (h : a ∣ n) (ha : 0 < a) : alignUp n a = n := by
  rw [← nextMul_eq ha, nextMul_self (Nat.mod_eq_zero_of_dvd h)]

theorem one_place {fs : List Lay} (hf : ∀ f ∈ fs, Rusty f) (h : OneField fs) :
    ∀ c, (∀ f ∈ fs, ¬ (f.size = 0 ∧ f.align = 1) → f.align ∣ c) →
      cEnd c fs = c + (fs.map (·.size)).sum ∧
      (∀ p ∈ cPlace c fs, p.2.size ≠ 0 → p.1 = c) ∧ (cAlign fs ∣ (fs.map (·.size)).sum) := by
  induction fs with
  | nil => intro c _; simp [cEnd, cPlace, cAlign]
  | cons f fs ih =>
    intro c hc
    have hf' := fun g hg => hf g (List.mem_cons_of_mem _ hg)
    by_cases hz : f.size = 0 ∧ f.align = 1
    · have h1 : OneField fs := by simpa [OneField, hz.1, hz.2] using h
      have e : alignUp c f.align = c := by rw [hz.2]; simp [alignUp]
      obtain ⟨i1, i2, i3⟩ := ih hf' h1 c fun g hg => hc g (List.mem_cons_of_mem _ hg)
      refine ⟨by simp only [cEnd, e, hz.1, List.map_cons, List.sum_cons, Nat.add_zero, i1]; omega, ?_, ?_⟩
      · intro p hp hs
        simp only [cPlace, e, hz.1, Nat.add_zero, List.mem_cons] at hp
        rcases hp with rfl | hp
        · exact absurd hz.1 hs
        · exact i2 p hp hs
      · simp only [cAlign, hz.2, List.map_cons, List.sum_cons, hz.1, Nat.zero_add]
        have := cAlign_pos fs
        rwa [Nat.max_eq_right this]
    · have h1 : ∀ g ∈ fs, g.size = 0 ∧ g.align = 1 := by
        intro g hg
        unfold OneField at h
        rw [List.filter_cons_of_pos (by simp only [Bool.not_eq_true', Bool.and_eq_false_iff, beq_eq_false_iff_ne]; omega)] at h
        simp only [List.length_cons] at h
        have h2 : (fs.filter fun f => !(f.size == 0 && f.align == 1)) = [] := List.eq_nil_of_length_eq_zero (by omega)
        have := List.filter_eq_nil_iff.1 h2 g hg
        simpa using this
      have e : alignUp c f.align = c := alignUp_self (hc f (List.mem_cons_self ..) hz) (hf f (List.mem_cons_self ..)).1.pos
      have h2 : OneField fs := by
        unfold OneField
        rw [List.filter_eq_nil_iff.2 (by intro g hg; simp [h1 g hg])]
        simp
      obtain ⟨i1, i2, i3⟩ := ih hf' h2 (c + f.size) fun g hg hn => absurd (h1 g hg) hn
      have hsum : (fs.map (·.size)).sum = 0 := by
        clear ih h i1 i2 i3 hf hc h2 hf'
        induction fs with
        | nil => rfl
        | cons g fs ih2 =>
          simp only [List.map_cons, List.sum_cons, (h1 g (List.mem_cons_self ..)).1, Nat.zero_add]
          exact ih2 fun g hg => h1 g (List.mem_cons_of_mem _ hg)
      have hal : cAlign fs = 1 := by
        clear ih h i1 i2 i3 hf hc h2 hf' hsum
        induction fs with
        | nil => rfl
        | cons g fs ih2 =>
          simp only [cAlign, (h1 g (List.mem_cons_self ..)).2, ih2 fun g hg => h1 g (List.mem_cons_of_mem _ hg)]
          rfl
      refine ⟨by simp only [cEnd, e, List.map_cons, List.sum_cons, i1]; omega, ?_, ?_⟩
      · intro p hp hs
        simp only [cPlace, e, List.mem_cons] at hp
        rcases hp with rfl | hp
        · rfl
        · have : p.2 ∈ fs := by
            clear ih h i1 i2 i3 hf hc h2 hf' hsum hal e h1
            generalize c + f.size = k at hp
            induction fs generalizing k with
            | nil => simp [cPlace] at hp
            | cons g fs ih2 =>
              simp only [cPlace, List.mem_cons] at hp
              rcases hp with rfl | hp
              · simp
              · exact List.mem_cons_of_mem _ (ih2 _ hp)
          exact absurd (h1 _ this).1 hs
      · simp only [cAlign, hal, List.map_cons, List.sum_cons, hsum, Nat.add_zero]
        have hp := (hf f (List.mem_cons_self ..)).1.pos
        rw [Nat.max_eq_left hp]
        exact (hf f (List.mem_cons_self ..)).2

theorem zip_self {α : Type} {l : List α} {β : Type} {f : α → β} {p : β × α} (h : p ∈ (l.map f).zip l) : p.1 = f p.2 := by
  induction l with
  | nil => simp at h
  | cons a l ih =>
    simp only [List.map_cons, List.zip_cons_cons, List.mem_cons] at h
    rcases h with rfl | h
    · rfl
    · exact ih h

theorem zip_place {offs : List Nat} {c : Nat} {fs : List Lay} {p : Nat × (Nat × Lay)} (h : p ∈ offs.zip (cPlace c fs)) :
    (p.1, p.2.2) ∈ offs.zip fs ∧ p.2 ∈ cPlace c fs := by
  refine ⟨?_, (List.of_mem_zip h).2⟩
  induction fs generalizing c offs with
  | nil => simp [cPlace] at h
  | cons f fs ih =>
    cases offs with
    | nil => simp at h
    | cons o offs =>
      simp only [cPlace, List.zip_cons_cons, List.mem_cons] at h ⊢
      rcases h with rfl | h
      · exact .inl rfl
      · exact .inr (ih h)

theorem declared_facts (attrs : List (List Item)) (hv : Valid (emitted attrs)) (fs : List Lay) (hne : fs ≠ []) (hf : ∀ f ∈ fs, Rusty f) :
    (declared attrs fs).align = max (seen attrs) (cAlign fs) ∧
      (declared attrs fs).size = alignUp (cEnd 0 fs) (max (seen attrs) (cAlign fs)) := by
  have h0 : ∀ f ∈ fs, 0 < f.align := fun f h => (hf f h).1.pos
  have hstruct : (structOf fs).align = max 1 (cAlign fs) ∧ (structOf fs).size = alignUp (cEnd 0 fs) (max 1 (cAlign fs)) := by
    rw [Nat.max_eq_right (cAlign_pos fs)]
    exact ⟨(C04_size_align fs h0).2, (C04_size_align fs h0).1⟩
  unfold declared seen
  split
  · rename_i n h
    simp only [h]
    exact C04_repr_align n (hv.align n (pick_align h)) fs hne h0
  · rename_i h
    split
    · rename_i n h'; exact absurd h' (h n)
    · exact hstruct

/-! ### C75: structs -/

/-- The computed layout is rustc's for all fields and all layouts that rustc may choose exactly if the attributes are understood: no
`packed`, no alignment but the one of the attribute that was picked, and a defined representation. -/
theorem C75_struct_iff (attrs : List (List Item)) (hv : Valid (emitted attrs)) :
    (∀ fs, fs ≠ [] → (∀ f ∈ fs, Rusty f) → ∀ offs size align, Compiled (emitted attrs) fs offs size align →
      Right (declared attrs fs) fs offs size align) ↔ Understood attrs := by
  constructor
  · intro h
    have hpack : packing (emitted attrs) = none := by
      cases hp : packing (emitted attrs) with
      | none => rfl
      | some n =>
        exfalso
        have hm : .packed n ∈ emitted attrs := by
          clear hv h
          revert hp
          generalize emitted attrs = is
          induction is with
          | nil => simp [packing]
          | cons i is ih => cases i <;> simp +contextual [packing] <;> grind
        have hn := (hv.packed n hm).1
        have hc : .c ∈ emitted attrs := by
          apply pick_c
          cases hk : pick attrs with
          | none => exact .inr rfl
          | some a =>
            cases a with
            | c => exact .inl rfl
            | align m => exact absurd (pick_align hk) (hv.apart n m hm)
            | transparent => exact absurd (hv.alone (pick_transparent hk) _ hm) (by simp)
        have ha : asked (emitted attrs) = 1 := by
          rcases asked_mem (emitted attrs) with h | h
          · exact h
          · exact absurd h (hv.apart n _ hm)
        have h2 : Pow2 (2 * n) := by obtain ⟨k, rfl⟩ := hn; exact ⟨k + 1, by rw [Nat.pow_succ, Nat.mul_comm]⟩
        have hpos := hn.pos
        have hcap : [Lay.prim (2 * n) (2 * n) .none .b0 false].map (cap (emitted attrs)) = [Lay.prim (2 * n) n .none .b0 false] := by
          simp [cap, hp, Lay.prim]; omega
        have hdz : n ∣ 2 * n := ⟨2, by omega⟩
        have hc0 : alignUp 0 n = 0 := alignUp_self (Nat.dvd_zero _) hpos
        have hr := h [Lay.prim (2 * n) (2 * n) .none .b0 false] (by simp)
          (by intro f hf; simp only [List.mem_singleton] at hf; subst hf; exact ⟨h2, Nat.dvd_refl _⟩) [0] (2 * n) n
          (by
            refine ⟨rfl, ?_, fun _ => ?_, fun ht => absurd (hv.alone ht _ hm) (by simp), ?_⟩
            · rw [hcap, ha]; simp only [cAlign, Lay.prim]; omega
            · rw [hcap]
              simp only [cPlace, cEnd, Lay.prim, hc0, Nat.zero_add, List.map_cons, List.map_nil, true_and]
              exact (alignUp_self hdz hpos).symm
            · rw [hcap]
              refine ⟨⟨?_, ?_, ?_⟩, hdz⟩ <;> simp [Lay.prim, hdz])
        have := hr.align
        rw [(declared_facts attrs hv _ (by simp) (by
          intro f hf; simp only [List.mem_singleton] at hf; subst hf; exact ⟨h2, Nat.dvd_refl _⟩)).1] at this
        simp only [cAlign, Lay.prim] at this
        omega
    -- one byte
    have hu1 : ∀ f ∈ [Lay.prim 1 1 .none .b0 false], Rusty f := by
      intro f hf; simp only [List.mem_singleton] at hf; subst hf; exact ⟨⟨0, rfl⟩, Nat.dvd_refl _⟩
    have hA := asked_pow2 hv
    have hApos := hA.pos
    have hseen : seen attrs = asked (emitted attrs) := by
      by_cases ht : .transparent ∈ emitted attrs
      · have h1 : asked (emitted attrs) = 1 := by
          rcases asked_mem (emitted attrs) with h | h
          · exact h
          · exact absurd (hv.alone ht _ h) (by simp)
        rw [h1]
        unfold seen
        split
        · rename_i n hk; exact absurd (hv.alone ht _ (pick_align hk)) (by simp)
        · rfl
      · have h1 : alignUp 1 (asked (emitted attrs)) = asked (emitted attrs) := by
          unfold alignUp
          rw [show 1 + asked (emitted attrs) - 1 = asked (emitted attrs) by omega, Nat.div_self hApos, Nat.one_mul]
        have hr := h [Lay.prim 1 1 .none .b0 false] (by simp) hu1 [0] (asked (emitted attrs)) (asked (emitted attrs))
          (by
            refine ⟨rfl, ?_, fun _ => ?_, fun h => absurd h ht, ?_⟩
            · rw [cap_none hpack]; simp only [cAlign, Lay.prim]; omega
            · rw [cap_none hpack]
              simp [cPlace, cEnd, Lay.prim, alignUp_self (Nat.dvd_zero 1), h1]
            · rw [cap_none hpack]
              refine ⟨⟨?_, ?_, ?_⟩, Nat.dvd_refl _⟩ <;> simp [Lay.prim] <;> omega)
        have := hr.align
        rw [(declared_facts attrs hv _ (by simp) hu1).1] at this
        simp only [cAlign, Lay.prim] at this
        have hs : 1 ≤ seen attrs := by
          unfold seen; split
          · rename_i n hk; exact (hv.align n (pick_align hk)).pos
          · exact Nat.le_refl _
        omega
    refine ⟨hpack, hseen, ?_⟩
    by_cases hc : .c ∈ emitted attrs
    · exact .inl hc
    by_cases ht : .transparent ∈ emitted attrs
    · exact .inr ht
    -- two bytes, in the other order
    exfalso
    have hu2 : ∀ f ∈ [Lay.prim 1 1 .none .b0 false, Lay.prim 1 1 .none .b0 false], Rusty f := by
      intro f hf; simp only [List.mem_cons, List.not_mem_nil, or_false, or_self] at hf; subst hf; exact ⟨⟨0, rfl⟩, Nat.dvd_refl _⟩
    have hr := h [Lay.prim 1 1 .none .b0 false, Lay.prim 1 1 .none .b0 false] (by simp) hu2 [1, 0]
      (2 * asked (emitted attrs)) (asked (emitted attrs))
      (by
        refine ⟨rfl, ?_, fun h => absurd h hc, fun h => absurd h ht, ?_⟩
        · rw [cap_none hpack]; simp only [cAlign, Lay.prim]; omega
        · rw [cap_none hpack]
          refine ⟨⟨?_, ?_, ?_⟩, ⟨2, by omega⟩⟩ <;> simp [Lay.prim] <;> omega)
    have := hr.offs (1, 0, Lay.prim 1 1 .none .b0 false) (by simp [cPlace, Lay.prim, alignUp]) (by simp [Lay.prim])
    simp at this
  · rintro ⟨hpack, hseen, hr⟩ fs hne hf offs size align hc
    have h0 : ∀ f ∈ fs, 0 < f.align := fun f h => (hf f h).1.pos
    obtain ⟨h1, h2⟩ := declared_facts attrs hv fs hne hf
    have hal := hc.align
    rw [cap_none hpack] at hal
    rw [hseen, ← hal] at h1 h2
    rcases hr with hr | hr
    · obtain ⟨h3, h4⟩ := hc.c hr
      rw [cap_none hpack] at h3 h4
      refine ⟨by rw [h2, h4], h1, ?_⟩
      intro p hp _
      rw [h3] at hp
      exact zip_self hp
    · obtain ⟨h3, h4, h5⟩ := hc.transparent hr
      obtain ⟨i1, i2, i3⟩ := one_place hf h3 0 fun f _ _ => Nat.dvd_zero _
      have ha : asked (emitted attrs) = 1 := by
        rcases asked_mem (emitted attrs) with h | h
        · exact h
        · exact absurd (hv.alone hr _ h) (by simp)
      refine ⟨?_, h1, ?_⟩
      · rw [h2, i1, Nat.zero_add, h4, hal, ha, Nat.max_eq_right (cAlign_pos fs)]
        exact alignUp_self i3 (cAlign_pos fs)
      · intro p hp hs
        obtain ⟨hz1, hz2⟩ := zip_place hp
        rw [i2 p.2 hz2 hs]
        exact h5 (p.1, p.2.2) hz1 hs

example : Understood [] ∧ Understood [[.c]] ∧ Understood [[.transparent]] ∧ Understood [[.align 16], [.c]] ∧
    ¬ Understood [[.align 16]] ∧ ¬ Understood [[.c, .align 16]] ∧ ¬ Understood [[.c], [.align 16]] ∧ ¬ Understood [[.packed 1]] := by
  simp [Understood, emitted, pick, parseAttr, packing, asked, seen, List.findSome?]

example : Valid (emitted [[.align 16], [.c]]) ∧ Valid (emitted [[.packed 1]]) := by
  constructor <;> constructor <;> simp [emitted, pick, parseAttr, packing, List.findSome?]
  · exact ⟨4, rfl⟩
  · exact ⟨0, rfl⟩

theorem cap_id {is : List Item} {p : Nat} (h : packing is = some p) {fs : List Lay} (hp : cAlign fs ≤ p) : fs.map (cap is) = fs := by
  induction fs with
  | nil => rfl
  | cons f fs ih =>
    simp only [cAlign] at hp
    rw [List.map_cons, ih (by omega)]
    congr 1
    simp only [cap, h]
    rw [Nat.min_eq_right (by omega)]

theorem cap_align {is : List Item} {p : Nat} (h : packing is = some p) (fs : List Lay) :
    cAlign (fs.map (cap is)) = max 1 (min p (cAlign fs)) := by
  induction fs with
  | nil => simp only [List.map_nil, cAlign]; omega
  | cons f fs ih =>
    simp only [List.map_cons, cAlign, ih]
    simp only [cap, h]
    omega

/-- If the representation is that of C (whether asked for or added by the macro) the check in `ID` detects every mistake: when it passes, the
layout is right, `packed` and unseen alignments included. -/
theorem C75_check (attrs : List (List Item)) (hv : Valid (emitted attrs)) (hc : .c ∈ emitted attrs) (fs : List Lay) (hne : fs ≠ [])
    (hf : ∀ f ∈ fs, Rusty f) (offs : List Nat) (size align : Nat) (h : Compiled (emitted attrs) fs offs size align) :
    idCheck attrs fs size align = true ↔ Right (declared attrs fs) fs offs size align := by
  constructor
  · intro hi
    simp only [idCheck, Bool.and_eq_true, decide_eq_true_eq] at hi
    refine ⟨hi.1.symm, hi.2.symm, ?_⟩
    obtain ⟨h3, -⟩ := h.c hc
    have hcap : fs.map (cap (emitted attrs)) = fs := by
      cases hp : packing (emitted attrs) with
      | none => exact cap_none hp fs
      | some p =>
        apply cap_id hp
        have hal := h.align
        rw [cap_align hp, hi.2, (declared_facts attrs hv fs hne hf).1] at hal
        have hm : .packed p ∈ emitted attrs := by
          clear hv h hal hi h3 hc
          revert hp
          generalize emitted attrs = is
          induction is with
          | nil => simp [packing]
          | cons i is ih => cases i <;> simp +contextual [packing] <;> grind
        have hpp := (hv.packed p hm).1.pos
        have ha : asked (emitted attrs) = 1 := by
          rcases asked_mem (emitted attrs) with h | h
          · exact h
          · exact absurd h (hv.apart p _ hm)
        rw [ha] at hal
        omega
    intro p hp _
    rw [h3, hcap] at hp
    exact zip_self hp
  · intro hr
    simp [idCheck, hr.size, hr.align]

/-- A struct is rejected exactly if it is larger than the Rust representation of its fields would be, unless `no_opt` is given, the struct is
generic, or its first attribute is understood as an alignment. -/
theorem C75_accepted_iff (noOpt : Bool) (generics : Nat) (attrs : List (List Item)) (size rust : Nat) :
    accepted noOpt generics attrs size rust = false ↔
      noOpt = false ∧ generics = 0 ∧ (∀ n, pick attrs ≠ some (.align n)) ∧ rust < size := by
  unfold accepted
  cases noOpt <;> cases hp : pick attrs with
  | none => simp
  | some a => cases a <;> simp

example : accepted false 0 [[.c]] 12 8 = false ∧ accepted false 0 [[.align 16]] 16 8 = true := by decide

/-- `struct { a: u8, b: u32, c: u8 }`. -/
def abc : List Lay := [Lay.prim 1 1 .none .b0 false, Lay.prim 4 4 .none .b0 false, Lay.prim 1 1 .none .b0 false]

/-- Refuted: `#[stabby] #[repr(align(16))]` leaves the struct with the Rust representation, so that rustc may put `b` first; the check
passes, and bytes of `b` are reported unused. -/
theorem C75_rust_repr_refuted : Compiled (emitted [[.align 16]]) abc [4, 0, 5] 16 16 ∧ idCheck [[.align 16]] abc 16 16 = true ∧
    accepted false 0 [[.align 16]] 16 8 = true ∧ (declared [[.align 16]] abc).ub.Unused 1 0 := by
  refine ⟨⟨rfl, by decide, by decide, fun h => absurd h (by decide), ⟨⟨?_, ?_, ?_⟩, ⟨1, rfl⟩⟩⟩, by decide +kernel, by decide, ⟨255, by decide +kernel, by decide⟩⟩
  · decide
  · decide
  · decide

/-- Refuted: `#[repr(packed)]` is accepted (the message that it is not supported is never shown); the computed size and alignment are
wrong, and bytes of `b` are reported unused.  The check in `ID` would detect it if it were evaluated. -/
theorem C75_packed_refuted : Compiled (emitted [[.packed 1]]) abc [0, 1, 5] 6 1 ∧ accepted false 0 [[.packed 1]] 6 8 = true ∧
    (declared [[.packed 1]] abc).size = 12 ∧ (declared [[.packed 1]] abc).align = 4 ∧ (declared [[.packed 1]] abc).ub.Unused 1 0 ∧
    idCheck [[.packed 1]] abc 6 1 = false := by
  refine ⟨⟨rfl, by decide, by decide, fun h => absurd h (by decide), ⟨⟨?_, ?_, ?_⟩, ⟨6, rfl⟩⟩⟩, by decide, by decide +kernel, by decide +kernel,
    ⟨255, by decide +kernel, by decide⟩, by decide +kernel⟩
  · decide
  · decide
  · decide

/-- Refuted: the alignment in `#[repr(C, align(16))]`, or in a second attribute, is ignored: a struct of 16 bytes is taken for one of 1. -/
theorem C75_align_refuted (attrs : List (List Item)) (h : attrs = [[.c, .align 16]] ∨ attrs = [[.c], [.align 16]]) :
    Compiled (emitted attrs) [Lay.prim 1 1 .none .b0 false] [0] 16 16 ∧ accepted true 0 attrs 16 1 = true ∧
    (declared attrs [Lay.prim 1 1 .none .b0 false]).size = 1 ∧ (declared attrs [Lay.prim 1 1 .none .b0 false]).align = 1 := by
  rcases h with rfl | rfl
  all_goals
    refine ⟨⟨rfl, by decide, by decide, fun h => absurd h (by decide), ⟨⟨?_, ?_, ?_⟩, ⟨1, rfl⟩⟩⟩, by decide, by decide +kernel, by decide +kernel⟩
    · decide
    · decide
    · decide

/-! ### C75: unions -/

/-- A layout that rustc may give to a union: size and alignment, specified with `repr(C)` only. -/
structure CompiledUnion (is : List Item) (fs : List Lay) (size al : Nat) : Prop where
  align : .c ∈ is → al = max (asked is) (cAlign (fs.map (cap is)))
  size : .c ∈ is → size = alignUp (cMaxSize fs) al

/-- The computed layout of a union is rustc's for all members exactly if neither `packed` nor an alignment is asked for. -/
theorem C75_union_iff (attrs : List (List Item)) (hv : Valid (emittedUnion attrs)) :
    (∀ fs, (∀ f ∈ fs, Rusty f) → ∀ size al, CompiledUnion (emittedUnion attrs) fs size al →
      (unionOf fs).size = size ∧ (unionOf fs).align = al) ↔
    packing (emittedUnion attrs) = none ∧ asked (emittedUnion attrs) = 1 := by
  constructor
  · intro h
    have ha : asked (emittedUnion attrs) = 1 := by
      have := (h [] (by simp) _ _ ⟨fun _ => rfl, fun _ => rfl⟩).2
      rw [(C07_union [] (by simp)).2.1] at this
      simp only [List.map_nil, cAlign] at this
      have := asked_pos (emittedUnion attrs)
      omega
    refine ⟨?_, ha⟩
    cases hp : packing (emittedUnion attrs) with
    | none => rfl
    | some n =>
      exfalso
      have hn : Pow2 n := by
        refine (hv.packed n ?_).1
        clear hv h ha
        revert hp
        generalize emittedUnion attrs = is
        induction is with
        | nil => simp [packing]
        | cons i is ih => cases i <;> simp +contextual [packing] <;> grind
      have h2 : Pow2 (2 * n) := by obtain ⟨k, rfl⟩ := hn; exact ⟨k + 1, by rw [Nat.pow_succ, Nat.mul_comm]⟩
      have hpos := hn.pos
      have hf : ∀ f ∈ [Lay.prim (2 * n) (2 * n) .none .b0 false], Rusty f := by
        intro f hf; simp only [List.mem_singleton] at hf; subst hf; exact ⟨h2, Nat.dvd_refl _⟩
      have := (h _ hf _ _ ⟨fun _ => rfl, fun _ => rfl⟩).2
      rw [(C07_union _ fun f h => (hf f h).1).2.1, ha, cap_align hp] at this
      simp only [cAlign, Lay.prim] at this
      omega
  · rintro ⟨h1, h2⟩ fs hf size al hc
    obtain ⟨u1, u2, -⟩ := C07_union fs fun f h => (hf f h).1
    have hm : .c ∈ emittedUnion attrs := List.mem_append_right _ (List.mem_singleton_self _)
    have hal := hc.align hm
    rw [cap_none h1, h2, Nat.max_eq_right (cAlign_pos fs)] at hal
    exact ⟨by rw [u1, hc.size hm, hal, cUnionSize], by rw [u2, hal]⟩

example : Valid (emittedUnion []) ∧ packing (emittedUnion []) = none ∧ asked (emittedUnion []) = 1 := by
  refine ⟨⟨?_, ?_, ?_, ?_, ?_⟩, rfl, rfl⟩ <;> simp [emittedUnion]

/-- Refuted: `#[stabby] #[repr(align(16))] union U { a: u8 }` has 16 bytes and is taken for 1 byte; `#[repr(packed)] union { a: u32 }` is taken
for aligned. -/
theorem C75_union_refuted : CompiledUnion (emittedUnion [[.align 16]]) [Lay.prim 1 1 .none .b0 false] 16 16 ∧
    (unionOf [Lay.prim 1 1 .none .b0 false]).size = 1 ∧
    CompiledUnion (emittedUnion [[.packed 1]]) [Lay.prim 4 4 .none .b0 false] 4 1 ∧
    (unionOf [Lay.prim 4 4 .none .b0 false]).align = 4 := by
  refine ⟨⟨fun _ => by decide, fun _ => by decide⟩, by decide, ⟨fun _ => by decide, fun _ => by decide⟩, by decide⟩

/-! ### C75: enums -/

/-- Starting from what was read so far, parsing succeeds exactly if the rest names at most one representation besides `C`, the one already
read if there is one. -/
theorem parseFull_some (items : List EItem) (s f : Full) (hs : s.repr ≠ some .c ∧ s.repr ≠ some .other) :
    parseFull s items = some f ↔
      (∀ x ∈ items, x = .c ∨ f.repr = some x) ∧ .other ∉ items ∧ (f.isC = true ↔ s.isC = true ∨ .c ∈ items) ∧
      (∀ r, s.repr = some r → f.repr = some r) ∧ (s.repr = none → ∀ r, f.repr = some r → r ∈ items ∧ r ≠ .c) := by
  induction items generalizing s with
  | nil =>
    obtain ⟨sr, sc⟩ := s
    obtain ⟨fr, fc⟩ := f
    simp only [parseFull, Option.some.injEq, Full.mk.injEq, List.not_mem_nil, false_implies, implies_true, not_false_eq_true, or_false,
      true_and, false_and]
    constructor
    · rintro ⟨rfl, rfl⟩
      exact ⟨Iff.rfl, fun _ h => h, fun h r h' => by rw [h] at h'; simp at h'⟩
    · rintro ⟨h1, h2, h3⟩
      refine ⟨?_, by cases sc <;> cases fc <;> simp_all⟩
      cases sr with
      | some r => exact (h2 r rfl).symm
      | none =>
        cases fr with
        | none => rfl
        | some r => exact (h3 rfl r rfl).elim
  | cons x rest ih =>
    by_cases hxo : x = .other
    · subst hxo; simp [parseFull]
    by_cases hxc : x = .c
    · subst hxc
      rw [parseFull, ih { s with isC := true } hs]
      simp only [List.mem_cons, forall_eq_or_imp, true_or, true_and, reduceCtorEq, false_or, or_true, iff_true]
      constructor
      · rintro ⟨h1, h2, h3, h4, h5⟩
        exact ⟨h1, h2, h3, h4, fun h r hr => ⟨.inr (h5 h r hr).1, (h5 h r hr).2⟩⟩
      · rintro ⟨h1, h2, h3, h4, h5⟩
        exact ⟨h1, h2, h3, h4, fun h r hr => ⟨(h5 h r hr).1.resolve_left (h5 h r hr).2, (h5 h r hr).2⟩⟩
    have e : parseFull s (x :: rest) = match s.repr with
        | none => parseFull { s with repr := some x } rest
        | some r => if x = r then parseFull s rest else none := by
      cases x with
      | c => exact absurd rfl hxc
      | other => exact absurd rfl hxo
      | _ => rfl
    rw [e]
    have hxc' : ¬ EItem.c = x := fun h => hxc h.symm
    have hxo' : ¬ EItem.other = x := fun h => hxo h.symm
    cases hr : s.repr with
    | none =>
      dsimp only
      rw [ih _ ⟨by simpa using hxc, by simpa using hxo⟩]
      simp only [List.mem_cons, forall_eq_or_imp, hxc, hxc', hxo', false_or, Option.some.injEq, forall_eq', reduceCtorEq, false_implies,
        implies_true, and_true, true_and, forall_const]
      constructor
      · rintro ⟨h1, h2, h3, h4⟩
        exact ⟨⟨h4, h1⟩, h2, h3, fun r h => by rw [h4] at h; simp only [Option.some.injEq] at h; subst h; exact ⟨.inl rfl, hxc⟩⟩
      · rintro ⟨⟨h4, h1⟩, h2, h3, h5⟩
        exact ⟨h1, h2, h3, h4⟩
    | some r =>
      dsimp only
      split
      · rename_i h
        subst h
        rw [ih _ hs, hr]
        simp only [List.mem_cons, forall_eq_or_imp, hxc, hxc', hxo', false_or, Option.some.injEq, forall_eq', reduceCtorEq, false_implies,
          and_true]
        constructor
        · rintro ⟨h1, h2, h3, h4⟩; exact ⟨⟨h4, h1⟩, h2, h3, h4⟩
        · rintro ⟨⟨h4, h1⟩, h2, h3, -⟩; exact ⟨h1, h2, h3, h4⟩
      · rename_i h
        simp only [reduceCtorEq, false_iff]
        rintro ⟨h1, -, -, h4, -⟩
        have h5 := h1 x (List.mem_cons_self ..)
        rw [h4 r rfl] at h5
        rcases h5 with h5 | h5
        · exact hxc h5
        · simp only [Option.some.injEq] at h5; exact h h5.symm

/-- A tagged enum: there is one attribute, it names no other tag, `C` is kept as it was written, and the tag is the one written, `u8` if only
`C` was. -/
theorem C75_enum (fields : Bool) (attrs : List (List EItem)) (is : List EItem) (t : Tag) :
    expand fields attrs = .tagged is t ↔
      ∃ items, attrs = [items] ∧ (∀ x ∈ items, x = .c ∨ x = .tag t) ∧ (.tag t ∈ items ∨ (t = .u8 ∧ .c ∈ items)) ∧
        is = if .c ∈ items then [.c, .tag t] else [.tag t] := by
  match attrs with
  | [] => cases fields <;> simp [expand]
  | _ :: _ :: _ => simp [expand]
  | [items] =>
    simp only [expand, List.cons.injEq, and_true, exists_eq_left']
    cases hp : parseFull ⟨none, false⟩ items with
    | none =>
      simp only [reduceCtorEq, false_iff]
      rintro ⟨h1, h2, -⟩
      by_cases ht : .tag t ∈ items
      · have := (parseFull_some items ⟨none, false⟩ ⟨some (.tag t), decide (.c ∈ items)⟩ (by simp)).2
          ⟨fun x hx => (h1 x hx).imp id fun h => by rw [h], fun h => by simpa using h1 _ h, by simp, by simp,
            fun _ r hr => by simp only [Option.some.injEq] at hr; subst hr; exact ⟨ht, by simp⟩⟩
        rw [hp] at this; simp at this
      · have := (parseFull_some items ⟨none, false⟩ ⟨none, decide (.c ∈ items)⟩ (by simp)).2
          ⟨fun x hx => .inl ((h1 x hx).resolve_right fun h => ht (h ▸ hx)), fun h => by simpa using h1 _ h, by simp, by simp, by simp⟩
        rw [hp] at this; simp at this
    | some f =>
      obtain ⟨h1, h2, h3, -, h5⟩ := (parseFull_some items ⟨none, false⟩ f (by simp)).1 hp
      simp only [Bool.false_eq_true, false_or, forall_const] at h3 h5
      cases hr : f.repr with
      | none =>
        simp only [hr, reduceCtorEq, or_false, false_and, if_false] at h1 ⊢
        by_cases hc : .c ∈ items
        · simp only [h3.2 hc, if_true, hc, and_true, Expansion.tagged.injEq]
          constructor
          · rintro ⟨rfl, rfl⟩
            exact ⟨fun x hx => .inl (h1 x hx), .inr rfl, rfl⟩
          · rintro ⟨-, h, rfl⟩
            rcases h with h | h
            · simpa using h1 _ h
            · subst h; exact ⟨rfl, rfl⟩
        · have : f.isC = false := by cases h : f.isC with | false => rfl | true => exact absurd (h3.1 h) hc
          simp only [this, Bool.false_eq_true, if_false]
          constructor
          · intro h; split at h <;> simp at h
          · rintro ⟨h, h' | h', -⟩
            · simpa using h1 _ h'
            · exact absurd h'.2 hc
      | some r =>
        dsimp only
        rw [hr] at h1 h5 ⊢
        obtain ⟨hm, hnc⟩ := h5 r rfl
        cases r with
        | c => exact absurd rfl hnc
        | other => exact absurd hm h2
        | stabby =>
          constructor
          · intro h
            revert h
            dsimp only
            split
            · simp
            · split <;> simp
          · rintro ⟨h, -, -⟩
            simpa using h _ hm
        | tag t' =>
          simp only [Option.some.injEq, reduceCtorEq, false_and, if_false, Expansion.tagged.injEq]
          have e : (if f.isC = true then [EItem.c, EItem.tag t'] else [EItem.tag t']) = if .c ∈ items then [.c, .tag t'] else [.tag t'] := by
            by_cases hc : .c ∈ items
            · rw [if_pos (h3.2 hc), if_pos hc]
            · rw [if_neg fun h => hc (h3.1 h), if_neg hc]
          rw [e]
          constructor
          · rintro ⟨rfl, rfl⟩
            exact ⟨fun x hx => (h1 x hx).imp id fun h => by simp at h; exact h.symm, .inl hm, rfl⟩
          · rintro ⟨h, h', rfl⟩
            have := h _ hm
            simp only [reduceCtorEq, false_or, EItem.tag.injEq] at this
            subst this
            exact ⟨rfl, rfl⟩

/-- The niche-using representation: no attribute, an empty one, or `stabby` alone, and a variant with a field; only without an attribute is the
optimality check made. -/
theorem C75_enum_stabby (fields : Bool) (attrs : List (List EItem)) (check : Bool) :
    expand fields attrs = .stabby check ↔
      fields = true ∧ ((check = true ∧ attrs = []) ∨ (check = false ∧ ∃ items, attrs = [items] ∧ ∀ x ∈ items, x = .stabby)) := by
  match attrs with
  | [] => cases fields <;> cases check <;> simp [expand]
  | _ :: _ :: _ => simp [expand]
  | [items] =>
    simp only [expand, List.cons.injEq, and_true, exists_eq_left', List.cons_ne_nil, and_false, false_or, reduceCtorEq]
    cases hp : parseFull ⟨none, false⟩ items with
    | none =>
      simp only [reduceCtorEq, false_iff]
      rintro ⟨-, -, h1⟩
      by_cases ht : .stabby ∈ items
      · have := (parseFull_some items ⟨none, false⟩ ⟨some .stabby, false⟩ (by simp)).2
          ⟨fun x hx => .inr (by rw [h1 x hx]), fun h => by simpa using h1 _ h,
            by simp only [Bool.false_eq_true, false_or, false_iff]; intro h; simpa using h1 _ h, by simp,
            fun _ r hr => by simp only [Option.some.injEq] at hr; subst hr; exact ⟨ht, by simp⟩⟩
        rw [hp] at this; simp at this
      · have hnil : items = [] := by
          cases items with
          | nil => rfl
          | cons x l => have := h1 x (List.mem_cons_self ..); subst this; simp at ht
        subst hnil
        simp [parseFull] at hp
    | some f =>
      obtain ⟨h1, h2, h3, -, h5⟩ := (parseFull_some items ⟨none, false⟩ f (by simp)).1 hp
      simp only [Bool.false_eq_true, false_or, forall_const] at h3 h5
      cases hr : f.repr with
      | none =>
        simp only [hr, reduceCtorEq, or_false, false_and, if_false] at h1 ⊢
        by_cases hc : .c ∈ items
        · simp only [h3.2 hc, if_true, reduceCtorEq, false_iff]
          rintro ⟨-, -, h⟩
          simpa using h _ hc
        · have : f.isC = false := by cases h : f.isC with | false => rfl | true => exact absurd (h3.1 h) hc
          simp only [this, Bool.false_eq_true, if_false]
          have hnil : items = [] := by
            cases items with
            | nil => rfl
            | cons x l => exact absurd (h1 x (List.mem_cons_self ..) ▸ List.mem_cons_self ..) hc
          subst hnil
          cases fields <;> cases check <;> simp
      | some r =>
        dsimp only
        rw [hr] at h1 h5 ⊢
        obtain ⟨hm, hnc⟩ := h5 r rfl
        cases r with
        | c => exact absurd rfl hnc
        | other => exact absurd hm h2
        | tag t =>
          simp only [Option.some.injEq, reduceCtorEq, false_and, if_false, false_iff]
          rintro ⟨-, -, h⟩
          simpa using h _ hm
        | stabby =>
          by_cases hc : .c ∈ items
          · simp only [h3.2 hc, and_self, if_true, reduceCtorEq, false_iff]
            rintro ⟨-, -, h⟩
            simpa using h _ hc
          · have : f.isC = false := by cases h : f.isC with | false => rfl | true => exact absurd (h3.1 h) hc
            simp only [this, Bool.false_eq_true, and_false, if_false]
            have hall : ∀ x ∈ items, x = .stabby := fun x hx => by
              rcases h1 x hx with h | h
              · exact absurd (h ▸ hx) hc
              · simpa using h.symm
            cases fields <;> cases check <;> simp <;> first | exact hall | skip

example : expand true [[.c]] = .tagged [.c, .tag .u8] .u8 ∧ expand false [[.tag .i16]] = .tagged [.tag .i16] .i16 ∧
    expand true [[.tag .u8, .c]] = .tagged [.c, .tag .u8] .u8 ∧ expand true [[.tag .u8, .tag .u16]] = .panics ∧
    expand true [[.c], [.tag .u8]] = .panics ∧ expand true [] = .stabby true ∧ expand true [[.c, .stabby]] = .panics := by decide

end Verif.Props.ReprAttr
