import Verif.Props.Optimal
import Verif.Props.Found

/-! Property C64, for enums of any number of variants (TUTORIAL.md:236, 279-281). -/
namespace Verif.Props.EnumOptimal
open Verif.Layout Verif.Sum Verif.Layout.Optimal Verif.Props.Layout Verif.Props.Optimal Verif.Props.Found

theorem dvd_of_le {a b : Nat} (ha : Pow2 a) (hb : Pow2 b) (h : a ≤ b) : a ∣ b := by
  obtain ⟨i, rfl⟩ := ha
  obtain ⟨j, rfl⟩ := hb
  exact Nat.pow_dvd_pow 2 ((Nat.pow_le_pow_iff_right (by decide)).1 h)

theorem alignUp_dvd {n a : Nat} : a ∣ alignUp n a := by unfold alignUp; exact Nat.dvd_mul_left _ _

theorem alignUp_one {a : Nat} (ha : 0 < a) : alignUp 1 a = a := by rw [← nextMul_eq ha, nextMul_one ha]

theorem le_alignUp {n a : Nat} (ha : 0 < a) : n ≤ alignUp n a := by rw [← nextMul_eq ha]; exact le_nextMul _ _

theorem foldr_le {l : List Nat} {b n : Nat} (hb : b ≤ n) (h : ∀ x ∈ l, x ≤ n) : l.foldr max b ≤ n := by
  induction l with
  | nil => exact hb
  | cons a l ih =>
    have h1 := h a (by simp)
    have h2 := ih fun x hx => h x (by simp [hx])
    simp only [List.foldr_cons]; omega

theorem le_foldr {l : List Nat} {b x : Nat} (h : x ∈ l) : x ≤ l.foldr max b := by
  induction l with
  | nil => cases h
  | cons a l ih =>
    simp only [List.foldr_cons]
    rcases List.mem_cons.1 h with rfl | h
    · omega
    · have := ih h; omega

theorem max_mem {l : List Nat} (h : l ≠ []) : l.foldr max 0 ∈ l := by
  induction l with
  | nil => exact absurd rfl h
  | cons a l ih =>
    simp only [List.foldr_cons]
    cases l with
    | nil => simp
    | cons b l =>
      have := ih (by simp)
      rcases Nat.le_total a ((b :: l).foldr max 0) with h | h
      · rw [Nat.max_eq_right h]; exact List.mem_cons_of_mem _ this
      · rw [Nat.max_eq_left h]; exact List.mem_cons_self

theorem cAlign_eq (vs : List Ty) (hne : vs ≠ []) (ha : ∀ v ∈ vs, 0 < v.lay.align) : cAlign (vs.map Ty.lay) = maxAlign vs := by
  have h : ∀ l : List Ty, cAlign (l.map Ty.lay) = max (maxAlign l) 1 := by
    intro l
    induction l with
    | nil => rfl
    | cons a l ih => simp only [List.map_cons, cAlign, ih, maxAlign, List.foldr_cons]; omega
  rw [h]
  cases vs with
  | nil => exact absurd rfl hne
  | cons a l =>
    have := ha a (by simp)
    simp only [maxAlign, List.map_cons, List.foldr_cons]; omega

/-- The size of an enum with a tag of one byte: room for the largest variant and one byte more, in whole units of the alignment; no layout with a byte for the
tag could be smaller. -/
theorem C64_enum_repr_u8 (vs : List Ty) (hne : vs ≠ []) (hr : ∀ v ∈ vs, Rusty v.lay) :
    reprU8Size (vs.map Ty.lay) = alignUp (maxSize vs + 1) (maxAlign vs) := by
  have hp : ∀ v ∈ vs, 0 < v.lay.align := fun v hv => (hr v hv).1.pos
  have hA := cAlign_eq vs hne hp
  obtain ⟨w, hw, hwA⟩ : ∃ w ∈ vs, w.lay.align = maxAlign vs := by
    have := max_mem (l := vs.map fun v => v.lay.align) (by simpa using hne)
    obtain ⟨w, hw, e⟩ := List.mem_map.1 this
    exact ⟨w, hw, e⟩
  obtain ⟨u, hu, huS⟩ : ∃ u ∈ vs, u.lay.size = maxSize vs := by
    have := max_mem (l := vs.map fun v => v.lay.size) (by simpa using hne)
    obtain ⟨w, hw, e⟩ := List.mem_map.1 this
    exact ⟨w, hw, e⟩
  have hpA : Pow2 (maxAlign vs) := hwA ▸ (hr w hw).1
  have hend : ∀ v ∈ vs, cEnd 0 [Ty.u8.lay, v.lay] = v.lay.align + v.lay.size := by
    intro v hv
    simp only [cEnd, show Ty.u8.lay.size = 1 from rfl, show Ty.u8.lay.align = 1 from rfl, show alignUp 0 1 = 0 from by decide, Nat.zero_add, alignUp_one (hp v hv)]
  unfold reprU8Size
  rw [hA, List.map_map]
  apply Nat.le_antisymm
  · refine alignUp_le hpA.pos alignUp_dvd (foldr_le ?_ ?_)
    · have := le_alignUp (n := maxSize vs + 1) hpA.pos; omega
    · intro x hx
      obtain ⟨v, hv, rfl⟩ := List.mem_map.1 hx
      simp only [Function.comp, hend v hv]
      have hle : v.lay.size ≤ maxSize vs := le_foldr (List.mem_map.2 ⟨v, hv, rfl⟩)
      have hal : v.lay.align ≤ maxAlign vs := le_foldr (List.mem_map.2 ⟨v, hv, rfl⟩)
      have hd : v.lay.align ∣ alignUp (maxSize vs + 1) (maxAlign vs) := Nat.dvd_trans (dvd_of_le (hr v hv).1 hpA hal) alignUp_dvd
      have hlt := le_alignUp (n := maxSize vs + 1) hpA.pos
      obtain ⟨i, hi⟩ := (hr v hv).2
      obtain ⟨j, hj⟩ := hd
      have hij : i < j := by
        refine Nat.lt_of_mul_lt_mul_left (a := v.lay.align) ?_
        rw [← hi, ← hj]; omega
      have : v.lay.align * (i + 1) ≤ v.lay.align * j := Nat.mul_le_mul_left _ hij
      rw [Nat.mul_add, Nat.mul_one, ← hi, ← hj] at this
      omega
  · refine alignUp_le hpA.pos alignUp_dvd ?_
    refine Nat.le_trans ?_ (le_alignUp hpA.pos)
    have h1 : u.lay.align + u.lay.size ≤ (vs.map ((fun v => cEnd 0 [Ty.u8.lay, v]) ∘ Ty.lay)).foldr max 1 :=
      le_foldr (List.mem_map.2 ⟨u, hu, by simp only [Function.comp, hend u hu]⟩)
    have := hp u hu
    omega

example : reprU8Size ([Ty.array .u16 3, .unit, .u16, .u32, .unit].map Ty.lay) = 8 ∧ alignUp (6 + 1) 4 = 8 := by decide +kernel

/-! ### When the check accepts -/

/-- A tree is at least as large as each of its leaves. -/
theorem tree_size (t : Tree) : maxSize t.leaves ≤ t.ty.lay.size := by
  induction t with
  | leaf t => simp [Tree.leaves, Tree.ty, maxSize]
  | node l r ihl ihr =>
    have : (Tree.node l r).ty.lay.size = detSize l.ty.lay r.ty.lay + max l.ty.lay.size r.ty.lay.size := rfl
    simp only [Tree.leaves, maxSize, List.map_append, max_append] at *
    omega

theorem tree_rusty (t : Tree) (h : t.ty.WF) (hr : ∀ v ∈ t.leaves, Rusty v.lay) : Rusty t.ty.lay := by
  cases t with
  | leaf t => exact hr t (by simp [Tree.leaves])
  | node l r =>
    refine ⟨(ty_good h).align, Nat.dvd_of_mod_eq_zero ?_⟩
    show (detSize l.ty.lay r.ty.lay + max l.ty.lay.size r.ty.lay.size) % resAlign l.ty.lay r.ty.lay = 0
    have hpos : 0 < resAlign l.ty.lay r.ty.lay := ((ty_good h.1).align.max (ty_good h.2.1).align).pos
    rw [Nat.add_mod, show max l.ty.lay.size r.ty.lay.size % resAlign l.ty.lay r.ty.lay = 0 from h.2.2, detSize, nextMul_mod hpos]
    exact Nat.zero_mod _

/-- **C64.** An enum without `repr` is accepted exactly if telling its variants apart takes no room: it is as large as its largest variant. -/
theorem C64_enum_iff (vs : List Ty) (hne : vs ≠ []) (h : (build vs).ty.WF) (hr : ∀ v ∈ vs, Rusty v.lay) :
    enumOptimal vs (reprU8Size (vs.map Ty.lay)) = true ↔ (build vs).ty.lay.size = maxSize vs := by
  have hl := build_leaves vs hne
  have hge := tree_size (build vs)
  obtain ⟨hp2, hdvd⟩ := tree_rusty (build vs) h (by rw [hl]; exact hr)
  have hal := (C64_enum_bound vs hne (fun v hv => (hr v hv).1.pos) vs.length (Nat.le_of_lt Nat.lt_two_pow_self)).2
  rw [hl] at hge
  rw [C64_enum_repr_u8 vs hne hr, enumOptimal, decide_eq_true_eq]
  rw [hal] at hp2 hdvd
  constructor
  · intro hlt
    refine Nat.le_antisymm (Nat.le_of_not_lt fun hgt => ?_) hge
    have := alignUp_le hp2.pos hdvd (n := maxSize vs + 1) hgt
    omega
  · intro e
    have := le_alignUp (n := maxSize vs + 1) hp2.pos
    omega

/-- A type all of whose bit patterns are values, as far as stabby knows. -/
def Full (t : Lay) : Prop := t.size ≠ 0 ∧ t.fv = .none ∧ t.ub = []

theorem lists_ne {f : Fv} {os : List Nat} (h : Lists f os) : ∃ o, o ∈ os := by
  induction h with
  | last p v => exact ⟨p, by simp⟩
  | byte p v r os _ _ => exact ⟨p, by simp⟩
  | left a b os _ ih => exact ih
  | right a b os _ ih => exact ih
  | range mn mx p => exact ⟨p, by simp⟩

theorem full_tells {x y : Lay} {s : Nat} (hx : Full x) (h : Tells x.size x 0 y s) : False := by
  have hno : ∀ i b, ¬ Spare x.size x 0 i b := by
    rintro i b ⟨h1, _, h | h | ⟨_, v, h, _⟩⟩
    · omega
    · omega
    · rw [hx.2.2] at h; cases h
  rcases h with ⟨os, h, _⟩ | ⟨os, h, h'⟩ | ⟨i, b, h, _⟩
  · rw [hx.2.1] at h; cases h
  · obtain ⟨o, ho⟩ := lists_ne h
    exact hno _ _ (h' o ho 0 (by decide))
  · exact hno _ _ h

/-- Next to a full type there is no room for a tag, on whichever side it is. -/
theorem full_grows {x y : Lay} (gx : x.Good) (gy : y.Good) (hx : Full x) (hs : max x.size y.size % max x.align y.align = 0) :
    x.size < (resultLay x y).size ∧ x.size < (resultLay y x).size := by
  have l1 : max x.size y.size ≤ (resultLay x y).size := Nat.le_add_left _ _
  have l2 : max y.size x.size ≤ (resultLay y x).size := Nat.le_add_left _ _
  rcases Nat.lt_or_ge x.size y.size with hlt | hle
  · omega
  have hm : max x.size y.size = x.size := Nat.max_eq_left hle
  have hm' : max y.size x.size = x.size := Nat.max_eq_right hle
  have hroom : room x y = x.size := by
    rw [← room_eq gx gy, unionSize]
    simp only [Nat.add_zero]
    unfold nextMul
    rw [if_pos hs, hm]
  suffices h : (resultLay x y).size ≠ x.size ∧ (resultLay y x).size ≠ x.size by omega
  by_cases h0 : y.size = 0
  · have := C94_option_partial x y gx gy hx.1 h0 (.inl hx.2.1)
    have hne : (resultLay x y).size ≠ x.size := by
      intro e
      rcases this.1.1 e with h | ⟨i, b, v, h, _⟩
      · exact h hx.2.1
      · rw [hx.2.2] at h; cases h
    exact ⟨hne, by rw [this.2]; exact hne⟩
  · have f1 := C94_found_partial x y gx gy hx.1 h0
    have f2 := C94_found_partial y x gy gx h0 hx.1
    rw [hm, hroom] at f1
    rw [hm', room_comm, hroom] at f2
    constructor
    · intro e
      obtain ⟨k, _, h⟩ := f1.1 e
      rw [if_pos hle] at h
      exact full_tells hx h.2
    · intro e
      obtain ⟨k, _, h⟩ := f2.1 e
      split at h
      · have hk : k * x.align = 0 := by omega
        rw [hk] at h
        exact full_tells hx h.2.symm
      · exact full_tells hx h.2.symm

theorem full_tree (t : Tree) (h : t.ty.WF) {v : Ty} (hv : v ∈ t.leaves) (hf : Full v.lay) (h2 : 2 ≤ t.leaves.length) : v.lay.size < t.ty.lay.size := by
  induction t with
  | leaf t => simp [Tree.leaves] at h2
  | node l r ihl ihr =>
    have hsz : (Tree.node l r).ty.lay.size = detSize l.ty.lay r.ty.lay + max l.ty.lay.size r.ty.lay.size := rfl
    obtain ⟨hl, hr, hs⟩ := h
    rcases List.mem_append.1 hv with hv | hv
    · by_cases hc : 2 ≤ l.leaves.length
      · have := ihl hl hv hc; omega
      · cases l with
        | leaf a =>
          obtain rfl : v = a := by simpa [Tree.leaves] using hv
          exact (full_grows (ty_good hl) (ty_good hr) hf hs).1
        | node a b =>
          have h1 : ∀ t : Tree, 1 ≤ t.leaves.length := fun t => by
            induction t with
            | leaf => simp [Tree.leaves]
            | node a b ha hb => simp only [Tree.leaves, List.length_append]; omega
          have ha := h1 a
          have hb := h1 b
          simp only [Tree.leaves, List.length_append] at hc; omega
    · by_cases hc : 2 ≤ r.leaves.length
      · have := ihr hr hv hc; omega
      · cases r with
        | leaf a =>
          obtain rfl : v = a := by simpa [Tree.leaves] using hv
          exact (full_grows (ty_good hr) (ty_good hl) hf (by rw [Nat.max_comm, Nat.max_comm (Tree.leaf v).ty.lay.align]; exact hs)).2
        | node a b =>
          have h1 : ∀ t : Tree, 1 ≤ t.leaves.length := fun t => by
            induction t with
            | leaf => simp [Tree.leaves]
            | node a b ha hb => simp only [Tree.leaves, List.length_append]; omega
          have ha := h1 a
          have hb := h1 b
          simp only [Tree.leaves, List.length_append] at hc; omega

/-- **C64.** An enum one of whose largest variants has no niche is refused unless it names its representation (TUTORIAL.md:279-281): however many variants it
has, and wherever that variant is among them. -/
theorem C64_enum_full (vs : List Ty) (h : (build vs).ty.WF) (hr : ∀ v ∈ vs, Rusty v.lay) (h2 : 2 ≤ vs.length) {v : Ty} (hv : v ∈ vs)
    (hf : Full v.lay) (hm : ∀ w ∈ vs, w.lay.size ≤ v.lay.size) : enumOptimal vs (reprU8Size (vs.map Ty.lay)) = false := by
  have hne : vs ≠ [] := by intro e; rw [e] at h2; simp at h2
  have hl := build_leaves vs hne
  rw [← Bool.not_eq_true, C64_enum_iff vs hne h hr]
  intro e
  have := full_tree (build vs) h (v := v) (by rw [hl]; exact hv) hf (by rw [hl]; exact h2)
  have h1 : maxSize vs ≤ v.lay.size := foldr_le (Nat.zero_le _) fun x hx => by
    obtain ⟨w, hw, rfl⟩ := List.mem_map.1 hx
    exact hm w hw
  omega

/-- `AllInts` of the tutorial (TUTORIAL.md:217-229, 282-296), whose tree is the one shown there (248-273). -/
def allInts : List Ty := [.u8, .u16, .u32, .u64, .u8, .u16, .u32, .u64]

theorem build_four (a b c d : Ty) : build [a, b, c, d] = .node (.node (.leaf a) (.leaf b)) (.node (.leaf c) (.leaf d)) := by
  rw [build]
  simp only [List.length_cons, List.length_nil]
  simp only [show (1 < 0 + 1 + 1 + 1 + 1) from by decide, dite_true, show (0 + 1 + 1 + 1 + 1) / 2 = 2 from rfl, List.take, List.drop]
  rw [build_two, build_two]

theorem build_all : build allInts = .node (.node (.node (.leaf .u8) (.leaf .u16)) (.node (.leaf .u32) (.leaf .u64)))
    (.node (.node (.leaf .u8) (.leaf .u16)) (.node (.leaf .u32) (.leaf .u64))) := by
  rw [build, allInts]
  simp only [List.length_cons, List.length_nil]
  simp only [show (1 < 0 + 1 + 1 + 1 + 1 + 1 + 1 + 1 + 1) from by decide, dite_true, show (0 + 1 + 1 + 1 + 1 + 1 + 1 + 1 + 1) / 2 = 4 from rfl, List.take,
    List.drop]
  rw [build_four]

theorem int_rusty {k : Nat} : Rusty (Lay.prim (2 ^ k) (2 ^ k) .none .b0 false) := ⟨⟨k, rfl⟩, Nat.dvd_refl _⟩

theorem allInts_rusty : ∀ v ∈ allInts, Rusty v.lay := by
  intro v hv
  simp only [allInts, List.mem_cons, List.not_mem_nil, or_false] at hv
  rcases hv with rfl | rfl | rfl | rfl | rfl | rfl | rfl | rfl
  exacts [int_rusty (k := 0), int_rusty (k := 1), int_rusty (k := 2), int_rusty (k := 3), int_rusty (k := 0), int_rusty (k := 1), int_rusty (k := 2),
    int_rusty (k := 3)]

theorem int_wf {k : Nat} : (Ty.prim (2 ^ k) (2 ^ k) .none .b0 false).WF := ⟨⟨k, rfl⟩, trivial, by simp [Fv.offsets]⟩

theorem allInts_wf : (build allInts).ty.WF := by
  rw [build_all]
  have w8 : Ty.u8.WF := int_wf (k := 0)
  have w16 : Ty.u16.WF := int_wf (k := 1)
  have w32 : Ty.u32.WF := int_wf (k := 2)
  have w64 : Ty.u64.WF := int_wf (k := 3)
  have half : (Tree.node (.node (.leaf .u8) (.leaf .u16)) (.node (.leaf .u32) (.leaf .u64))).ty.WF :=
    ⟨⟨w8, w16, by decide +kernel⟩, ⟨w32, w64, by decide +kernel⟩, by decide +kernel⟩
  exact ⟨half, half, by decide +kernel⟩

example : enumOptimal allInts (reprU8Size (allInts.map Ty.lay)) = false :=
  C64_enum_full allInts allInts_wf allInts_rusty (by decide) (v := .u64) (by simp [allInts]) ⟨by decide, rfl, rfl⟩ (by decide)

/-- The tree is that of the tutorial (TUTORIAL.md:248-273), which calls the tag in front optimal for `AllInts` (236): both representations take 16 bytes. -/
theorem C64_tutorial : build allInts = .node (.node (.node (.leaf .u8) (.leaf .u16)) (.node (.leaf .u32) (.leaf .u64)))
      (.node (.node (.leaf .u8) (.leaf .u16)) (.node (.leaf .u32) (.leaf .u64))) ∧ (build allInts).ty.lay.size = 16 ∧ reprU8Size (allInts.map Ty.lay) = 16 := by
  refine ⟨build_all, ?_⟩
  rw [build_all]; decide +kernel

/-- `Poll<NonZeroU64>` takes no room for its tag (TUTORIAL.md:209-215, 238-239): accepted. -/
example : enumOptimal [.unit, .nonZeroU64] (reprU8Size ([.unit, .nonZeroU64].map Ty.lay)) = true ∧ (build [.unit, .nonZeroU64]).ty.lay.size = 8 := by
  simp only [enumOptimal, build_two]; decide +kernel

/-! ### Variants without fields -/

/-- The layout of an enum of height `h` whose variants hold nothing: one byte, of which the lowest `h` bits are used. -/
def unitLay (h : Nat) : Lay :=
  if h = 0 then Lay.unit else ⟨1, 1, .none, if h < 8 then [(0, 255#8 <<< h)] else [], .b0, false⟩

theorem unit_step : ∀ a < 8, ∀ b < 8, resultLay (unitLay a) (unitLay b) = unitLay (max a b + 1) := by decide +kernel

theorem unit_full : ∀ a < 9, ∀ b < 9, max a b = 8 → (resultLay (unitLay a) (unitLay b)).size = 2 := by decide +kernel

theorem units_lay (t : Tree) (h : ∀ v ∈ t.leaves, v.lay = Lay.unit) (hh : height t ≤ 8) : t.ty.lay = unitLay (height t) := by
  induction t with
  | leaf t => exact h t (by simp [Tree.leaves])
  | node l r ihl ihr =>
    simp only [height] at hh ⊢
    have e1 := ihl (fun v hv => h v (by simp [Tree.leaves, hv])) (by omega)
    have e2 := ihr (fun v hv => h v (by simp [Tree.leaves, hv])) (by omega)
    show resultLay l.ty.lay r.ty.lay = _
    rw [e1, e2]
    exact unit_step _ (by omega) _ (by omega)

theorem leaves_le (t : Tree) : t.leaves.length ≤ 2 ^ height t := by
  induction t with
  | leaf t => simp [Tree.leaves, height]
  | node l r ihl ihr =>
    simp only [Tree.leaves, List.length_append, height, Nat.pow_succ]
    have h1 : 2 ^ height l ≤ 2 ^ max (height l) (height r) := Nat.pow_le_pow_right (by decide) (by omega)
    have h2 : 2 ^ height r ≤ 2 ^ max (height l) (height r) := Nat.pow_le_pow_right (by decide) (by omega)
    omega

/-- **C64.** Enums of up to 256 variants without fields take one byte, those of up to 512 take two: as few as tell that many variants apart. -/
theorem C64_units (vs : List Ty) (h : ∀ v ∈ vs, v.lay = Lay.unit) (h2 : 2 ≤ vs.length) :
    (vs.length ≤ 256 → (build vs).ty.lay.size = 1 ∧ (build vs).ty.lay.align = 1) ∧ (256 < vs.length → vs.length ≤ 512 → (build vs).ty.lay.size = 2) := by
  have hne : vs ≠ [] := by intro e; rw [e] at h2; simp at h2
  have hl := build_leaves vs hne
  have hlow := leaves_le (build vs)
  rw [hl] at hlow
  have hpow : ∀ {k}, 2 ^ k < vs.length → k < height (build vs) := fun {k} hk => by
    refine Nat.lt_of_not_le fun hc => ?_
    have := Nat.pow_le_pow_right (n := 2) (by decide) hc
    omega
  refine ⟨fun h8 => ?_, fun h8 h9 => ?_⟩
  · have h0 : 0 < height (build vs) := hpow (k := 0) (by omega)
    rw [units_lay (build vs) (by rw [hl]; exact h) (build_height vs 8 h8), unitLay, if_neg (by omega)]
    exact ⟨rfl, rfl⟩
  · have hgt : 8 < height (build vs) := hpow (k := 8) h8
    have hle := build_height vs 9 h9
    cases ht : build vs with
    | leaf t => rw [ht] at hgt; simp [height] at hgt
    | node l r =>
      rw [ht] at hgt hle hl
      simp only [height] at hgt hle
      simp only [Tree.leaves] at hl
      have e1 := units_lay l (fun v hv => h v (by rw [← hl]; simp [hv])) (by omega)
      have e2 := units_lay r (fun v hv => h v (by rw [← hl]; simp [hv])) (by omega)
      show (resultLay l.ty.lay r.ty.lay).size = 2
      rw [e1, e2]
      exact unit_full _ (by omega) _ (by omega) (by omega)

example : (List.replicate 200 Ty.unit).length ≤ 256 ∧ ∀ v ∈ List.replicate 200 Ty.unit, v.lay = Lay.unit := by
  refine ⟨by rw [List.length_replicate]; omega, fun v hv => ?_⟩
  rw [(List.mem_replicate.1 hv).2]; rfl

/-- Such an enum is refused without a representation of its own. -/
theorem C64_units_refused (vs : List Ty) (h : ∀ v ∈ vs, v.lay = Lay.unit) (h2 : 2 ≤ vs.length) (h8 : vs.length ≤ 256) :
    enumOptimal vs (reprU8Size (vs.map Ty.lay)) = false := by
  have hne : vs ≠ [] := by intro e; rw [e] at h2; simp at h2
  have hr : ∀ v ∈ vs, Rusty v.lay := fun v hv => by rw [h v hv]; exact ⟨⟨0, rfl⟩, Nat.dvd_of_mod_eq_zero rfl⟩
  have hA : maxAlign vs = 1 := by
    obtain ⟨w, hw, e⟩ := List.mem_map.1 (max_mem (l := vs.map fun v => v.lay.align) (by simpa using hne))
    rw [maxAlign, ← e, h w hw]; rfl
  have hS : maxSize vs = 0 := by
    obtain ⟨w, hw, e⟩ := List.mem_map.1 (max_mem (l := vs.map fun v => v.lay.size) (by simpa using hne))
    rw [maxSize, ← e, h w hw]; rfl
  rw [C64_enum_repr_u8 vs hne hr, hA, hS, enumOptimal, ((C64_units vs h h2).1 h8).1]
  decide

end Verif.Props.EnumOptimal
