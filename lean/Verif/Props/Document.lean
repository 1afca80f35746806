import Verif.Sum.Document
import Verif.Sum.Variants
import Verif.Props.Found
import Verif.Macros.Traits
import Verif.Props.Layout
/-! C114: the layouts are those of the specification repr-stabby.md. -/
set_option linter.unusedSimpArgs false
namespace Verif.Props.Document
open Verif.Layout Verif.Sum Verif.Sum.Document

/-! ### A layout in the words of the document -/

/-- The bytes of a single forbidden value. -/
def bytesOf : Fv → List (Nat × Byte)
  | .byte o v r => (o, v) :: bytesOf r
  | _ => []

/-- The forbidden values in order: a union is the concatenation, a range of bytes is one value after the other. -/
def valuesOf : Fv → List (List (Nat × Byte))
  | .none => []
  | .byte o v r => [bytesOf (.byte o v r)]
  | .or a b => valuesOf a ++ valuesOf b
  | .range mn mx o => (List.range (mx.toNat - mn.toNat + 1)).map (fun k => [(o, mn + BitVec.ofNat 8 k)])

/-- What the document has to be told about a type. -/
def docOf (t : Lay) : Doc := ⟨t.size, t.align, valuesOf t.fv, (List.range t.size).map t.ub.byteAt⟩

/-- The determinant of the implementation that the document's determinant names. -/
def detOf : Tag → Det
  | .bit => .bit
  | .valueIsErr fv => intoValueIsErr fv
  | .bitIsErr o b => .bitIsErr o (1#8 <<< b)
  | .not t => .not (detOf t)

/-- The document as it has to be read. -/
def meant : Reading := ⟨true, true⟩

/-- The mask mentions bytes in ascending order. -/
def Ascending (k : Mask) : Prop := (k.map Prod.fst).Pairwise (· < ·)

/-! ### Masks -/

theorem byteAt_bit {k : Mask} {lo hi i b : Nat} (g : k.Good lo hi) : (k.byteAt i).getLsbD b = true ↔ k.Unused i b := by
  constructor
  · intro h
    by_cases h0 : k.byteAt i = 0
    · rw [h0] at h; simp at h
    · exact ⟨_, Mask.byteAt_mem h0, h⟩
  · rintro ⟨v, hm, hv⟩
    rw [Found.byteAt_eq g.nodup hm]; exact hv

theorem dense {t : Lay} (g : t.Good) {s n : Nat} (h : t.size + s ≤ n) :
    (pad (Document.shift (docOf t).unbits s) n).length = n ∧
    ∀ i, i < n → (pad (Document.shift (docOf t).unbits s) n)[i]? = some ((errUnusedBits n t.ub t.size s).byteAt i) := by
  have gm := (errUb_member g (off := s) (usz := n) h).good
  have hl : (Document.shift (docOf t).unbits s).length = s + t.size := by simp [Document.shift, docOf]
  refine ⟨by simp [pad, hl]; omega, fun i hi => ?_⟩
  have full : (∀ b, b < 8 → (errUnusedBits n t.ub t.size s).Unused i b) → (errUnusedBits n t.ub t.size s).byteAt i = 255 := by
    intro hb
    apply byte_ext
    intro b hb8
    rw [getLsbD_255 ⟨b, hb8⟩]
    exact (byteAt_bit gm).mpr (hb b hb8)
  by_cases h1 : i < s
  · rw [full (fun b hb => (Found.unused_member hb h g).mpr ⟨hi, hb, .inl h1⟩)]
    simp [pad, Document.shift, List.getElem?_append, h1]
  · by_cases h2 : i < s + t.size
    · have e : (pad (Document.shift (docOf t).unbits s) n)[i]? = some (t.ub.byteAt (i - s)) := by
        rw [pad, List.getElem?_append_left (by rw [hl]; exact h2), Document.shift, List.getElem?_append_right (by simp; omega)]
        simp only [List.length_replicate, docOf, List.getElem?_map]
        rw [List.getElem?_range (by omega)]
        rfl
      rw [e]
      congr 1
      apply byte_ext
      intro b hb
      rw [Bool.eq_iff_iff, byteAt_bit g.ub, byteAt_bit gm, Found.unused_member hb h g]
      constructor
      · intro hu; exact ⟨hi, hb, .inr (.inr ⟨by omega, hu⟩)⟩
      · rintro ⟨_, _, h3 | h3 | h3⟩
        · omega
        · omega
        · exact h3.2
    · rw [full (fun b hb => (Found.unused_member hb h g).mpr ⟨hi, hb, .inr (.inl (by omega))⟩)]
      rw [pad, List.getElem?_append_right (by rw [hl]; omega)]
      rw [List.getElem?_replicate, if_pos (by rw [hl]; omega)]

theorem dense_ok {t : Lay} (g : t.Good) {n : Nat} (h : t.size ≤ n) :
    (pad (docOf t).unbits n).length = n ∧ ∀ i, i < n → (pad (docOf t).unbits n)[i]? = some ((errUnusedBits n t.ub t.size 0).byteAt i) := by
  have := dense g (s := 0) (n := n) (by omega)
  simpa [Document.shift] using this

theorem free_byteAt {k : Mask} {lo hi o : Nat} (g : k.Good lo hi) : k.hasFreeByteAt o = true ↔ k.byteAt o = 255 := by
  rw [Mask.hasFreeByteAt_iff]
  constructor
  · exact Found.byteAt_eq g.nodup
  · intro h
    have := Mask.byteAt_mem (k := k) (i := o) (by rw [h]; decide)
    rwa [h] at this

theorem canContain_eq {k : Mask} {n : Nat} {d : List Byte} (g : k.Good 0 n) (hl : d.length = n) (hd : ∀ i, i < n → d[i]? = some (k.byteAt i)) (o : Nat) :
    canContain d o = k.hasFreeByteAt o := by
  rw [Bool.eq_iff_iff, free_byteAt g, canContain]
  by_cases h : o < n
  · rw [hd o h]; simp
  · rw [List.getElem?_eq_none (by omega)]
    constructor
    · intro h; simp at h
    · intro h'
      have := Mask.byteAt_mem (k := k) (i := o) (by rw [h']; decide)
      have := (g.range _ _ this).2
      omega

/-! ### Forbidden values -/

theorem select_bytes {f : Fv} (h : f.IsBytes) (k : Mask) :
    ((∀ e ∈ bytesOf f, k.hasFreeByteAt e.1 = true) → f.selectFrom k = .bytes (bytesOf f)) ∧
    ((∃ e ∈ bytesOf f, k.hasFreeByteAt e.1 = false) → f.selectFrom k = .saturator) := by
  induction f with
  | none => exact ⟨fun _ => rfl, by rintro ⟨e, he, _⟩; cases he⟩
  | or a b => exact h.elim
  | range => exact h.elim
  | byte p v r ih =>
    obtain ⟨i1, i2⟩ := ih h
    constructor
    · intro h1
      have hp : k.hasFreeByteAt p = true := h1 (p, v) (by simp [bytesOf])
      have hr := i1 (fun e he => h1 e (by simp [bytesOf, he]))
      simp only [Fv.selectFrom, hp, hr, if_true]
      rfl
    · rintro ⟨e, he, hf⟩
      rcases List.mem_cons.1 (show e ∈ (p, v) :: bytesOf r from he) with rfl | he
      · simp only [Fv.selectFrom, hf]; rfl
      · have hr := i2 ⟨e, he, hf⟩
        simp only [Fv.selectFrom, hr]
        cases k.hasFreeByteAt p <;> rfl

theorem valuesOf_ne (f : Fv) : ∀ l ∈ valuesOf f, l ≠ [] := by
  induction f with
  | none => simp [valuesOf]
  | byte p v r _ => simp [valuesOf, bytesOf]
  | or a b iha ihb =>
    intro l hl
    simp only [valuesOf, List.mem_append] at hl
    exact hl.elim (iha l) (ihb l)
  | range mn mx p =>
    intro l hl
    simp only [valuesOf, List.mem_map] at hl
    obtain ⟨_, _, rfl⟩ := hl
    simp

theorem select_find {f : Fv} (h : f.WF) (k : Mask) :
    (f.selectFrom k).resolve = ((valuesOf f).find? (fun fv => fv.all (fun (o, _) => k.hasFreeByteAt o))).getD [] := by
  induction f with
  | none => simp [Fv.selectFrom, valuesOf, Sfv.resolve]
  | byte p v r _ =>
    by_cases hr : (bytesOf (.byte p v r)).all (fun (o, _) => k.hasFreeByteAt o) = true
    · rw [(select_bytes (f := .byte p v r) h.1 k).1 (by simpa using hr), valuesOf, List.find?_cons]; dsimp only; rw [hr]; rfl
    · rw [(select_bytes (f := .byte p v r) h.1 k).2 (by simpa using hr), valuesOf, List.find?_cons]; dsimp only; rw [Bool.eq_false_iff.2 hr]; rfl
  | or a b iha ihb =>
    show ((a.selectFrom k).or (b.selectFrom k)).resolve = _
    rw [Fv.sfvOr_resolve, iha h.1, ihb h.2, valuesOf, List.find?_append]
    cases hf : (valuesOf a).find? (fun fv => fv.all (fun (o, _) => k.hasFreeByteAt o)) with
    | none => simp
    | some l =>
      have := valuesOf_ne a l (List.mem_of_find?_eq_some hf)
      simp [this]
  | range mn mx p =>
    simp only [Fv.selectFrom, valuesOf, List.range_succ_eq_map, List.map_cons, List.find?_cons, List.all_cons, List.all_nil, Bool.and_true]
    cases hp : k.hasFreeByteAt p
    · simp only [Bool.false_eq_true, if_false, List.map_map, List.find?_map, Function.comp_def, List.all_cons, hp, Bool.false_and]
      rw [List.find?_eq_none.2 (by simp)]
      rfl
    · simp [Sfv.resolve]

theorem valuesOf_shift (f : Fv) (s : Nat) : valuesOf (f.shift s) = (valuesOf f).map (fun fv => fv.map (fun (o, v) => (o + s, v))) := by
  have hb : ∀ f : Fv, bytesOf (f.shift s) = (bytesOf f).map (fun (o, v) => (o + s, v)) := by
    intro f
    induction f <;> simp_all [Fv.shift, bytesOf]
  induction f with
  | none => simp [Fv.shift, valuesOf]
  | byte p v r _ => have := hb (.byte p v r); simp only [Fv.shift] at this; simp [Fv.shift, valuesOf, this]
  | or a b iha ihb => simp [Fv.shift, valuesOf, iha, ihb]
  | range mn mx p => simp [Fv.shift, valuesOf]

/-! ### Bits that neither uses -/

theorem byteAt_bitAnd {a k : Mask} (hn : (a.map Prod.fst).Nodup) (i : Nat) : (a.bitAnd k).byteAt i = a.byteAt i &&& k.byteAt i := by
  induction a with
  | nil => simp [Mask.bitAnd, Mask.byteAt]
  | cons e r ih =>
    obtain ⟨p, v⟩ := e
    rw [List.map_cons, List.nodup_cons] at hn
    have ih := ih hn.2
    simp only [Mask.bitAnd, Mask.byteAt]
    by_cases hp : p = i
    · subst hp
      have h0 : Mask.byteAt r p = 0 := Classical.byContradiction fun hc => hn.1 (List.mem_map.2 ⟨_, Mask.byteAt_mem hc, rfl⟩)
      split
      · rename_i h; rw [ih, h0, if_pos rfl, h]; simp
      · simp [Mask.byteAt]
    · rw [if_neg hp]
      split
      · exact ih
      · simp [Mask.byteAt, hp, ih]

theorem and_dense {a b : Mask} {n : Nat} {d e : List Byte} (ga : a.Good 0 n) (hd : d.length = n) (he : e.length = n)
    (h1 : ∀ i, i < n → d[i]? = some (a.byteAt i)) (h2 : ∀ i, i < n → e[i]? = some (b.byteAt i)) :
    (Document.and d e).length = n ∧ ∀ i, i < n → (Document.and d e)[i]? = some ((a.bitAnd b).byteAt i) := by
  refine ⟨by simp [Document.and, hd, he], fun i hi => ?_⟩
  rw [Document.and, List.getElem?_zipWith, h1 i hi, h2 i hi, byteAt_bitAnd ga.nodup]

theorem low_index : ∀ v : Byte, v ≠ 0 → 1#8 <<< rightmostOne v = Mask.lowBit v ∧ v ^^^ Mask.lowBit v = v - Mask.lowBit v := by decide +kernel

/-- Extracting a bit of the mask and of its list of bytes. -/
theorem extract_dense {k : Mask} {n : Nat} {d : List Byte} (g : k.Good 0 n) (asc : Ascending k) (hl : d.length = n)
    (hd : ∀ i, i < n → d[i]? = some (k.byteAt i)) :
    (k = [] → Document.extractBit d = none) ∧
    (∀ o v r, k = (o, v) :: r → ∃ bit rest, Document.extractBit d = some (o, bit, rest) ∧ 1#8 <<< bit = Mask.lowBit v ∧ rest.length = n ∧
      ∀ i, i < n → rest[i]? = some ((Mask.extractBit k).byteAt i)) := by
  constructor
  · rintro rfl
    have : d.findIdx? (· != 0) = none := by
      rw [List.findIdx?_eq_none_iff]
      intro x hx
      obtain ⟨i, hi, rfl⟩ := List.getElem_of_mem hx
      have := hd i (by omega)
      rw [List.getElem?_eq_getElem hi, Option.some_inj] at this
      rw [this]; simp [Mask.byteAt]
    rw [Document.extractBit, this]; rfl
  · rintro o v r rfl
    have ho := (g.range o v (by simp)).2
    have hv := (g.top o v (by simp)).1
    have e1 : Mask.byteAt ((o, v) :: r) o = v := by simp [Mask.byteAt]
    have later : ∀ i w, (i, w) ∈ r → o < i := by
      intro i w hm
      have := (List.pairwise_cons.1 (show (o :: r.map Prod.fst).Pairwise (· < ·) from asc)).1
      exact this i (List.mem_map.2 ⟨_, hm, rfl⟩)
    have hf : d.findIdx? (· != 0) = some o := by
      rw [List.findIdx?_eq_some_iff_getElem]
      have h1 := hd o ho
      rw [List.getElem?_eq_getElem (by omega), Option.some_inj] at h1
      refine ⟨by omega, by rw [h1, e1]; simpa using hv, fun j hj => ?_⟩
      have h2 := hd j (by omega)
      rw [List.getElem?_eq_getElem (by omega), Option.some_inj] at h2
      rw [h2]
      have : Mask.byteAt ((o, v) :: r) j = 0 := by
        refine Classical.byContradiction fun hc => ?_
        rcases List.mem_cons.1 (Mask.byteAt_mem hc) with h3 | h3
        · have := congrArg Prod.fst h3
          simp at this; omega
        · have := later _ _ h3; omega
      rw [this]; simp
    have hdo : (d[o]?).getD 0 = v := by rw [hd o ho, e1]; rfl
    obtain ⟨l1, l2⟩ := low_index v hv
    refine ⟨rightmostOne v, d.set o (v ^^^ (1#8 <<< rightmostOne v)), by rw [Document.extractBit, hf]; simp only [Option.map_some, hdo], l1, by simp [hl], fun i hi => ?_⟩
    rw [l1, l2, List.getElem?_set]
    have nor : Mask.byteAt r o = 0 := Classical.byContradiction fun hc => by
      have := later _ _ (Mask.byteAt_mem hc); omega
    by_cases hio : o = i
    · subst hio
      rw [if_pos rfl, if_pos (by omega)]
      simp only [Mask.extractBit]
      split
      · simp [Mask.byteAt]
      · rename_i h0
        have h0 : v - Mask.lowBit v = 0 := Decidable.not_not.1 h0
        rw [nor, h0]
    · rw [if_neg hio, hd i hi]
      simp only [Mask.extractBit]
      split <;> simp [Mask.byteAt, hio]

/-! ### Ascending masks -/

theorem Ascending.shift {k : Mask} (h : Ascending k) (s : Nat) : Ascending (k.shift s) := by
  rw [Ascending, Mask.map_fst_shift, List.pairwise_map]
  exact h.imp (fun h => by omega)

theorem Ascending.pad (n : Nat) : Ascending (padMask n) := by
  induction n with
  | zero => simp [Ascending, padMask]
  | succ n ih =>
    have := ih.shift 1
    simp only [Ascending, padMask, List.map_cons, List.pairwise_cons] at this ⊢
    refine ⟨fun i hi => ?_, this⟩
    rw [Mask.map_fst_shift, List.mem_map] at hi
    obtain ⟨j, _, rfl⟩ := hi
    omega

theorem Ascending.append {a b : Mask} {lo mid hi : Nat} (ha : Ascending a) (hb : Ascending b) (ga : a.Good lo mid) (gb : b.Good mid hi) : Ascending (a ++ b) := by
  rw [Ascending, List.map_append, List.pairwise_append]
  refine ⟨ha, hb, fun x hx y hy => ?_⟩
  obtain ⟨⟨i, v⟩, h1, rfl⟩ := List.mem_map.1 hx
  obtain ⟨⟨j, w⟩, h2, rfl⟩ := List.mem_map.1 hy
  have := (ga.range i v h1).2
  have := (gb.range j w h2).1
  show i < j
  omega

theorem Ascending.bitAnd {a : Mask} (h : Ascending a) (k : Mask) : Ascending (a.bitAnd k) :=
  h.sublist (Mask.bitAnd_fst_sublist a k)

theorem Ascending.member {t : Lay} (g : t.Good) (asc : Ascending t.ub) (n s : Nat) :
    Ascending (errUnusedBits n t.ub t.size s) := by
  unfold errUnusedBits
  rw [Mask.bitOr_eq, Mask.bitOr_eq]
  have h1 := g.ub.shift s
  rw [Nat.zero_add] at h1
  have h2 := Mask.Good.padAt (n - (t.size + s)) (t.size + s)
  have h3 := h1.append h2 (by omega) (by omega)
  exact (Ascending.pad s).append ((asc.shift s).append ((Ascending.pad _).shift _) h1 h2) (Mask.Good.pad s) h3

/-- The same bits. -/
def SameBits (n : Nat) (k : Mask) (d : List Byte) : Prop := d.length = n ∧ ∀ i, i < n → d[i]? = some (k.byteAt i)

/-- The search is the loop of the document. -/
theorem search_loop {x y : Lay} (gx : x.Good) (gy : y.Good) (ax : Ascending x.ub) {n : Nat} (hx : x.size ≤ n) (fuel i : Nat)
    (hy : y.size + i * y.align ≤ n) :
    let p := loop meant (docOf x) (docOf y) (pad (docOf x).unbits n) n fuel i
    let q := search n x.fv (errUnusedBits n x.ub x.size 0) y.fv y.ub y.size y.align fuel (i * y.align)
    p.okShift = 0 ∧ q.errShift = p.errShift ∧ q.det = detOf p.tag ∧ SameBits n q.exported p.unbits := by
  induction fuel generalizing i with
  | zero =>
    refine ⟨rfl, rfl, rfl, by simp [loop], fun j hj => ?_⟩
    simp [loop, search, withUnit, Mask.byteAt, List.getElem?_replicate, hj]
  | succ fuel ih =>
    have mx := errUb_member gx (off := 0) (usz := n) (by omega)
    have my := errUb_member gy (off := i * y.align) (usz := n) hy
    obtain ⟨lx, dx⟩ := dense_ok gx hx
    obtain ⟨ly, dy⟩ := dense gy hy
    have same := and_dense mx.good lx ly dx dy
    have f1 := select_find (f := y.fv.shift (i * y.align)) (Fv.wf_shift gy.fvWF) (errUnusedBits n x.ub x.size 0)
    have f2 := select_find (f := x.fv) gx.fvWF (errUnusedBits n y.ub y.size (i * y.align))
    rw [valuesOf_shift] at f1
    simp only [← canContain_eq mx.good lx dx] at f1
    simp only [← canContain_eq my.good ly dy] at f2
    have ext := extract_dense (mx.good.bitAnd my.good) ((Ascending.member gx ax n 0).bitAnd (errUnusedBits n y.ub y.size (i * y.align))) same.1 same.2
    have ne1 : ∀ l, ((valuesOf y.fv).map (fun fv => fv.map (fun (o, v) => (o + i * y.align, v)))).find?
        (fun fv => fv.all (fun (o, _) => canContain (pad (docOf x).unbits n) o)) = some l → l ≠ [] := by
      intro l hl
      have := List.mem_of_find?_eq_some hl
      rw [← valuesOf_shift] at this
      exact valuesOf_ne _ l this
    have ne2 : ∀ l, (valuesOf x.fv).find? (fun fv => fv.all (fun (o, _) => canContain (pad (Document.shift (docOf y).unbits (i * y.align)) n) o)) = some l → l ≠ [] :=
      fun l hl => valuesOf_ne _ l (List.mem_of_find?_eq_some hl)
    dsimp only
    unfold loop search
    dsimp only [docOf] at *
    simp only [meant, if_true] at *
    cases h1 : ((valuesOf y.fv).map (fun fv => fv.map (fun (o, v) => (o + i * y.align, v)))).find?
        (fun fv => fv.all (fun (o, _) => canContain (pad ((List.range x.size).map x.ub.byteAt) n) o)) with
    | some l =>
      rw [h1] at f1
      obtain ⟨e, l, rfl⟩ := List.exists_cons_of_ne_nil (ne1 l h1)
      simp only [Option.getD_some] at f1
      rw [f1]
      exact ⟨rfl, rfl, rfl, same⟩
    | none =>
      rw [h1] at f1
      simp only [Option.getD_none] at f1
      rw [f1]
      cases h2 : (valuesOf x.fv).find? (fun fv => fv.all (fun (o, _) => canContain (pad (Document.shift ((List.range y.size).map y.ub.byteAt) (i * y.align)) n) o)) with
      | some l =>
        rw [h2] at f2
        obtain ⟨e, l, rfl⟩ := List.exists_cons_of_ne_nil (ne2 l h2)
        simp only [Option.getD_some] at f2
        rw [f2]
        exact ⟨rfl, rfl, rfl, same⟩
      | none =>
        rw [h2] at f2
        simp only [Option.getD_none] at f2
        rw [f2]
        cases h3 : (errUnusedBits n x.ub x.size 0).bitAnd (errUnusedBits n y.ub y.size (i * y.align)) with
        | cons e r =>
          obtain ⟨o, v⟩ := e
          rw [h3] at ext
          obtain ⟨bit, rest, e1, e2, e3, e4⟩ := ext.2 o v r rfl
          rw [e1]
          exact ⟨rfl, rfl, by simp [detOf, e2], e3, e4⟩
        | nil =>
          rw [ext.1 h3]
          by_cases hf : y.size + y.align + i * y.align ≤ n
          · have e : y.align + i * y.align = (i + 1) * y.align := by rw [Nat.add_mul]; omega
            have := ih (i + 1) (by rw [← e]; omega)
            simp only [hf, if_true, e, show ¬ y.size + i * y.align + y.align > n by omega, if_false]
            exact this
          · simp only [hf, if_false, show y.size + i * y.align + y.align > n by omega, if_true]
            refine ⟨trivial, rfl, rfl, by simp, fun j hj => ?_⟩
            simp [withUnit, Mask.byteAt, List.getElem?_replicate, hj]

/-! ### The masks of all types are ascending -/

theorem asc_shift_one {k : Mask} (h : Ascending k) (n : Nat) (g : ∀ i v, (i, v) ∈ k → n ≤ i) {m : Nat} {v : Byte} (hm : m < n) : Ascending ((m, v) :: k) := by
  rw [Ascending, List.map_cons, List.pairwise_cons]
  refine ⟨fun i hi => ?_, h⟩
  obtain ⟨⟨j, w⟩, h1, rfl⟩ := List.mem_map.1 hi
  have := g j w h1
  show m < j
  omega

theorem Ascending.extractBit {k : Mask} (h : Ascending k) : Ascending k.extractBit := by
  cases k with
  | nil => exact h
  | cons e r =>
    obtain ⟨o, v⟩ := e
    simp only [Mask.extractBit]
    split
    · exact h
    · exact (List.pairwise_cons.1 (show ((o :: r.map Prod.fst).Pairwise (· < ·)) from h)).2

theorem Ascending.tail {t : Lay} (g : t.Good) (h : Ascending t.ub) (n : Nat) : Ascending (t.ub.bitOr ((padMask n).shift t.size)) := by
  rw [Mask.bitOr_eq]
  exact h.append ((Ascending.pad n).shift _) g.ub (Mask.Good.padAt n t.size)

theorem asc_search {x y : Lay} (gx : x.Good) (ax : Ascending x.ub) (n fuel s : Nat) :
    Ascending (search n x.fv (errUnusedBits n x.ub x.size 0) y.fv y.ub y.size y.align fuel s).exported := by
  induction fuel generalizing s with
  | zero => exact List.Pairwise.nil
  | succ fuel ih =>
    have h := (Ascending.member gx ax n 0).bitAnd (errUnusedBits n y.ub y.size s)
    unfold search
    dsimp only
    split
    · exact h
    · exact h
    · rename_i o v tail _ _ e
      rw [e] at h
      exact h.extractBit
    · split
      · exact ih _
      · exact List.Pairwise.nil

theorem ub_member (ok err : Lay) : unionMemberUnusedBits ok err 0 = errUnusedBits (Sum.unionSize ok err 0 0) ok.ub ok.size 0 := by
  simp [unionMemberUnusedBits, errUnusedBits, Mask.bitOr_eq, padMask]

theorem asc_inner {x y : Lay} (gx : x.Good) (ax : Ascending x.ub) : Ascending (inner x y).exported := by
  unfold inner
  split
  · unfold withUnit
    split
    · exact ax
    · rename_i e; rw [e] at ax; exact ax.extractBit
    · exact List.Pairwise.nil
  · rw [ub_member]; exact asc_search gx ax _ _ _

theorem asc_provider {x y : Lay} (gx : x.Good) (gy : y.Good) (ax : Ascending x.ub) (ay : Ascending y.ub) : Ascending (provider x y).exported := by
  unfold provider
  split
  · exact asc_inner gx ax
  · exact asc_inner gy ay

theorem ty_asc {t : Ty} (h : t.WF) : Ascending t.lay.ub := by
  induction t with
  | prim s a fv one ind => exact List.Pairwise.nil
  | fieldPair a b iha ihb =>
    have ga := ty_good h.1
    have gb := ty_good h.2
    show Ascending (a.lay.ub.bitOr (b.lay.alignedAfter a.lay.size).ub)
    rw [Mask.bitOr_eq, Lay.alignedAfter_ub]
    have hle := le_nextMul a.lay.size b.lay.align
    have hpad : ((padMask (nextMul a.lay.size b.lay.align - a.lay.size)).shift a.lay.size).Good a.lay.size (nextMul a.lay.size b.lay.align) := by
      have := Mask.Good.padAt (nextMul a.lay.size b.lay.align - a.lay.size) a.lay.size
      rwa [Nat.add_sub_cancel' hle] at this
    have hsh := gb.ub.shift (nextMul a.lay.size b.lay.align)
    rw [Nat.zero_add] at hsh
    exact (iha h.1).append (((Ascending.pad _).shift _).append ((ihb h.2).shift _) hpad hsh) ga.ub (hpad.append hsh hle (by omega))
  | struct t ih => exact Ascending.tail (t := t.lay) (ty_good h) (ih h) _
  | alignedStruct t al ih => exact Ascending.tail (t := t.lay) (ty_good h.1) (ih h.1) _
  | union a b _ _ => exact List.Pairwise.nil
  | array t n ih =>
    show Ascending (if n = 1 then t.lay.ub else [])
    split
    · exact ih h
    · exact List.Pairwise.nil
  | result a b iha ihb =>
    show Ascending (resultLay a.lay b.lay).ub
    cases res_ok (ty_good h.1) (ty_good h.2.1) with
    | niche _ _ _ ub _ _ _ => rw [ub]; exact asc_provider (ty_good h.1) (ty_good h.2.1) (iha h.1) (ihb h.2.1)
    | bit _ _ _ _ ub =>
      rw [ub]
      exact asc_shift_one ((Ascending.pad _).shift 1) 1 (fun i v hm => by obtain ⟨j, rfl, _⟩ := Mask.mem_shift.1 hm; omega) (by omega)

/-! ### The size of the union -/

theorem nextMul_mono {m n a : Nat} (ha : 0 < a) (h : m ≤ n) : nextMul m a ≤ nextMul n a := by
  rw [nextMul_eq ha, nextMul_eq ha, alignUp, alignUp]
  exact Nat.mul_le_mul_right _ (Nat.div_le_div_right (by omega))

theorem nextMul_max {m n a : Nat} (ha : 0 < a) : nextMul (max m n) a = max (nextMul m a) (nextMul n a) := by
  rcases Nat.le_total m n with h | h
  · rw [Nat.max_eq_right h, Nat.max_eq_right (nextMul_mono ha h)]
  · rw [Nat.max_eq_left h, Nat.max_eq_left (nextMul_mono ha h)]

theorem unionSize_doc {x y : Lay} (gx : x.Good) (gy : y.Good) (hx : x.size % x.align = 0) (hy : y.size % y.align = 0) :
    Document.unionSize (docOf x) (docOf y) = Sum.unionSize x y 0 0 := by
  have px := gx.align.pos
  have py := gy.align.pos
  show max (alignUp x.size y.align) (alignUp y.size x.align) = _
  rw [← nextMul_eq py, ← nextMul_eq px]
  unfold Sum.unionSize
  simp only [Nat.add_zero]
  rcases Nat.le_total x.align y.align with h | h
  · have e : y.size % x.align = 0 :=
      Nat.mod_eq_zero_of_dvd (Nat.dvd_trans (gx.align.dvd_of_le gy.align h) (Nat.dvd_of_mod_eq_zero hy))
    rw [Nat.max_eq_right h, nextMul_max py, nextMul_self e, nextMul_self hy]
  · have e : x.size % y.align = 0 :=
      Nat.mod_eq_zero_of_dvd (Nat.dvd_trans (gy.align.dvd_of_le gx.align h) (Nat.dvd_of_mod_eq_zero hx))
    rw [Nat.max_eq_left h, nextMul_max px, nextMul_self e, nextMul_self hx]

theorem size_le {x y : Lay} : x.size ≤ Sum.unionSize x y 0 0 ∧ y.size ≤ Sum.unionSize x y 0 0 := by
  have := le_nextMul (max x.size y.size) (max x.align y.align)
  unfold Sum.unionSize
  simp only [Nat.add_zero]
  omega

/-- The larger type first. -/
theorem inner_larger {x y : Lay} (gx : x.Good) (gy : y.Good) (ax : Ascending x.ub) (hx : x.size % x.align = 0) (hy : y.size % y.align = 0) (h0 : 0 < y.size) :
    (larger meant (docOf x) (docOf y)).okShift = 0 ∧ (inner x y).errShift = (larger meant (docOf x) (docOf y)).errShift ∧
    (inner x y).det = detOf (larger meant (docOf x) (docOf y)).tag ∧
    SameBits (Sum.unionSize x y 0 0) (inner x y).exported (larger meant (docOf x) (docOf y)).unbits := by
  have := search_loop gx gy ax (n := Sum.unionSize x y 0 0) size_le.1 8 0 (by have := (size_le (x := x) (y := y)).2; omega)
  rw [Nat.zero_mul] at this
  unfold larger inner
  rw [if_neg (by omega), ub_member, unionSize_doc gx gy hx hy]
  exact this

/-! ### Determinants -/

theorem bit_zero : ∀ v : Byte, decide (v &&& 1 = 0) = !v.getLsbD 0 := by decide +kernel
theorem bit_at : ∀ v : Byte, ∀ b : Fin 8, decide (v &&& 1#8 <<< b.val = 0) = !v.getLsbD b := by decide +kernel

theorem isOk_eq (t : Tag) (m : Mem) : (detOf t).isOk m = t.isOk m := by
  induction t with
  | bit => exact bit_zero _
  | valueIsErr fv =>
    show (intoValueIsErr fv).isOk m = !fv.all (fun (o, v) => m o == v)
    induction fv with
    | nil => rfl
    | cons e r ih =>
      obtain ⟨o, v⟩ := e
      simp only [intoValueIsErr, Det.isOk, ih, List.all_cons, Bool.not_and]
      congr 1
      by_cases h : m o = v <;> simp [h]
  | bitIsErr o b =>
    show decide (m o &&& 1#8 <<< b = 0) = !(m o).getLsbD b
    by_cases h : b < 8
    · exact bit_at (m o) ⟨b, h⟩
    · have e : (1#8 <<< b) = 0#8 := by
        apply BitVec.eq_of_toNat_eq
        simp [BitVec.toNat_shiftLeft]
        obtain ⟨k, rfl⟩ : ∃ k, b = 8 + k := ⟨b - 8, by omega⟩
        rw [Nat.shiftLeft_eq, Nat.pow_add]; omega
      rw [e, BitVec.getLsbD_of_ge _ _ (by omega)]
      simp
  | not t ih => exact congrArg (!·) ih

theorem lay_eq (t : Tag) : (detOf t).lay.size = if t.apart then 1 else 0 := by
  induction t with
  | bit => rfl
  | valueIsErr fv => show (intoValueIsErr fv).lay.size = _; rw [into_lay]; rfl
  | bitIsErr o b => rfl
  | not t ih => exact ih

/-! ### The layout of a `Result` -/

/-- The implementation agrees with the document about `Result<x, y>`: where the variants are, when it is `Ok`, and which bits of the union it leaves unused. -/
structure Agrees (r : Reading) (x y : Lay) : Prop where
  okAt : okOffset x y = (determinant r (docOf x) (docOf y)).okShift + unionAt r (docOf x) (docOf y)
  errAt : errOffset x y = (determinant r (docOf x) (docOf y)).errShift + unionAt r (docOf x) (docOf y)
  isOk : ∀ m, Sum.isOk x y m = (determinant r (docOf x) (docOf y)).tag.isOk m
  apart : detSize x y = unionAt r (docOf x) (docOf y)
  length : (determinant r (docOf x) (docOf y)).unbits.length = Sum.unionSize x y 0 0
  unbits : ∀ i b, i < Sum.unionSize x y 0 0 →
    ((provider x y).exported.Unused i b ↔ ∃ v, (determinant r (docOf x) (docOf y)).unbits[i]? = some v ∧ v.getLsbD b = true)

/-- From the agreement of the searches. -/
theorem agrees_of {x y : Lay} (gx : x.Good) (gy : y.Good)
    (h : y.size ≤ x.size → (larger meant (docOf x) (docOf y)).okShift = 0 ∧ (inner x y).errShift = (larger meant (docOf x) (docOf y)).errShift ∧
      (inner x y).det = detOf (larger meant (docOf x) (docOf y)).tag ∧
      SameBits (Sum.unionSize x y 0 0) (inner x y).exported (larger meant (docOf x) (docOf y)).unbits)
    (h' : x.size < y.size → (larger meant (docOf y) (docOf x)).okShift = 0 ∧ (inner y x).errShift = (larger meant (docOf y) (docOf x)).errShift ∧
      (inner y x).det = detOf (larger meant (docOf y) (docOf x)).tag ∧
      SameBits (Sum.unionSize y x 0 0) (inner y x).exported (larger meant (docOf y) (docOf x)).unbits) :
    Agrees meant x y := by
  have hpos : 0 < max x.align y.align := (gx.align.max gy.align).pos
  have key : (determinant meant (docOf x) (docOf y)).okShift = (provider x y).okShift ∧ (determinant meant (docOf x) (docOf y)).errShift = (provider x y).errShift ∧
      (provider x y).det = detOf (determinant meant (docOf x) (docOf y)).tag ∧
      SameBits (Sum.unionSize x y 0 0) (provider x y).exported (determinant meant (docOf x) (docOf y)).unbits := by
    unfold determinant provider
    by_cases hs : x.size ≥ y.size
    · obtain ⟨h1, h2, h3, h4⟩ := h hs
      rw [if_pos hs, if_neg (show ¬ (docOf x).size < (docOf y).size from Nat.not_lt.2 hs)]
      exact ⟨h1, h2.symm, h3, h4⟩
    · obtain ⟨h1, h2, h3, h4⟩ := h' (by omega)
      rw [if_neg hs, if_pos (show (docOf x).size < (docOf y).size from Nat.lt_of_not_le hs), unionSize_comm]
      exact ⟨h2.symm, h1, congrArg Det.not h3, h4⟩
  obtain ⟨k1, k2, k3, k4, k5⟩ := key
  have hd : detSize x y = unionAt meant (docOf x) (docOf y) := by
    unfold detSize unionAt
    rw [k3, lay_eq]
    split
    · rw [nextMul_eq (show 0 < resAlign x y from hpos)]; rfl
    · exact nextMul_zero _
  have good : Mask.Good (provider x y).exported 0 (Sum.unionSize x y 0 0) := by
    cases provider_ok gx gy with
    | niche _ _ _ sound _ _ => exact sound.good
    | bit _ _ _ exp => rw [exp]; exact .nil _ _
  refine ⟨by rw [okOffset, hd, k1], by rw [errOffset, hd, k2], fun m => ?_, hd, k4, fun i b hi => ?_⟩
  · rw [Sum.isOk, k3, isOk_eq]
  · rw [← byteAt_bit good, k5 i hi]
    simp

/-- C114: for any two types that are not empty, `Result<Ok, Err>` is laid out as the document says, read as it is meant. -/
theorem C114_result_partial {a b : Ty} (ha : a.WF) (hb : b.WF) (sa : a.lay.size % a.lay.align = 0) (sb : b.lay.size % b.lay.align = 0)
    (na : 0 < a.lay.size) (nb : 0 < b.lay.size) : Agrees meant a.lay b.lay :=
  agrees_of (ty_good ha) (ty_good hb) (fun _ => inner_larger (ty_good ha) (ty_good hb) (ty_asc ha) sa sb nb)
    (fun _ => inner_larger (ty_good hb) (ty_good ha) (ty_asc hb) sb sa na)

theorem u8_wf : Ty.u8.WF := ⟨⟨0, rfl⟩, trivial, by simp [Fv.offsets]⟩
theorem u16_wf : Ty.u16.WF := ⟨⟨1, rfl⟩, trivial, by simp [Fv.offsets]⟩
theorem unit_wf : Ty.unit.WF := ⟨⟨0, rfl⟩, trivial, by simp [Fv.offsets]⟩
theorem bool_wf : Ty.bool.WF := ⟨⟨0, rfl⟩, show (2 : Byte) ≤ 255 by decide, by simp [Fv.offsets]⟩

/-- Types as users name them: the size of primitives is a multiple of their alignment, and fields are in a struct. -/
def Whole : Ty → Prop
  | .prim s a _ _ _ => s % a = 0
  | .fieldPair _ _ => False
  | .array t _ => Whole t
  | _ => True

theorem whole_size {t : Ty} (h : t.WF) (hw : Whole t) : t.lay.size % t.lay.align = 0 := by
  induction t with
  | prim s a fv one ind => exact hw
  | fieldPair a b => exact hw.elim
  | struct t => exact nextMul_mod (ty_good (t := t) h).align.pos
  | alignedStruct t al => exact nextMul_mod (h.2.max (ty_good h.1).align).pos
  | union a b => exact nextMul_mod ((ty_good h.1).align.max (ty_good h.2).align).pos
  | array t n ih => exact Nat.mod_eq_zero_of_dvd (Nat.dvd_trans (Nat.dvd_of_mod_eq_zero (ih h hw)) (Nat.dvd_mul_right _ _))
  | result a b =>
    show (detSize a.lay b.lay + max a.lay.size b.lay.size) % resAlign a.lay b.lay = 0
    have hpos : 0 < resAlign a.lay b.lay := ((ty_good h.1).align.max (ty_good h.2.1).align).pos
    rw [Nat.add_mod, show max a.lay.size b.lay.size % resAlign a.lay b.lay = 0 from h.2.2, detSize, nextMul_mod hpos]
    exact Nat.zero_mod _

/-- C114: the same for all types that users can name. -/
theorem C114_named_partial {a b : Ty} (ha : a.WF) (hb : b.WF) (wa : Whole a) (wb : Whole b) (na : 0 < a.lay.size) (nb : 0 < b.lay.size) : Agrees meant a.lay b.lay :=
  C114_result_partial ha hb (whole_size ha wa) (whole_size hb wb) na nb

/-- A result whose parts are found by the search: `Result<(u8, u16), (bool, u8, u8)>`, where the smaller variant is shifted by one byte. -/
example : let a := Ty.struct (.fieldPair .u8 .u16); let b := Ty.struct (.fieldPair (.fieldPair .bool .u8) .u8)
    Agrees meant a.lay b.lay ∧ errOffset a.lay b.lay = 1 ∧ (determinant meant (docOf a.lay) (docOf b.lay)).tag = .not (.valueIsErr [(1, 2)]) := by
  refine ⟨C114_result_partial ⟨u8_wf, u16_wf⟩ ⟨⟨bool_wf, u8_wf⟩, u8_wf⟩ (by decide) (by decide) (by decide) (by decide), by decide +kernel, by decide +kernel⟩

/-! ### Empty variants -/

theorem values_offsets (f : Fv) : ∀ l ∈ valuesOf f, ∀ e ∈ l, e.1 ∈ f.offsets := by
  have hb : ∀ f : Fv, ∀ e ∈ bytesOf f, e.1 ∈ f.offsets := by
    intro f
    induction f with
    | byte p v r ih =>
      intro e he
      rcases List.mem_cons.1 (show e ∈ (p, v) :: bytesOf r from he) with rfl | he
      · simp [Fv.offsets]
      · simp [Fv.offsets, ih e he]
    | _ => intro e he; cases he
  induction f with
  | none => intro l hl; cases hl
  | byte p v r _ =>
    intro l hl
    rw [List.mem_singleton.1 (show l ∈ [bytesOf (.byte p v r)] from hl)]
    exact hb _
  | or a b iha ihb =>
    intro l hl e he
    simp only [valuesOf, List.mem_append] at hl
    simp only [Fv.offsets, List.mem_append]
    exact hl.imp (iha l · e he) (ihb l · e he)
  | range mn mx p =>
    intro l hl e he
    simp only [valuesOf, List.mem_map] at hl
    obtain ⟨_, _, rfl⟩ := hl
    rw [List.mem_singleton.1 he]
    simp [Fv.offsets]

theorem values_empty {f : Fv} (h : ∀ o ∈ f.offsets, False) : valuesOf f = [] := by
  rw [List.eq_nil_iff_forall_not_mem]
  intro l hl
  obtain ⟨e, r, rfl⟩ := List.exists_cons_of_ne_nil (valuesOf_ne f l hl)
  exact h _ (values_offsets f _ hl e (by simp))

theorem bytes_select {f : Fv} (h : f.IsBytes) : f.selectOne = bytesOf f := by
  induction f with
  | none => rfl
  | byte p v r ih => simp [Fv.selectOne, bytesOf, ih h]
  | or a b => exact h.elim
  | range => exact h.elim

theorem head_select {f : Fv} (h : f.WF) : (f.selectOne ≠ [] → (valuesOf f).head? = some f.selectOne) ∧ (valuesOf f = [] → f.selectOne = []) := by
  induction f with
  | none => exact ⟨fun h => absurd rfl h, fun _ => rfl⟩
  | byte p v r _ => exact ⟨fun _ => by rw [bytes_select (f := .byte p v r) h.1]; rfl, fun h => by cases h⟩
  | or a b iha ihb =>
    obtain ⟨h1, h2⟩ := iha h.1
    refine ⟨fun hn => ?_, fun he => h2 (List.append_eq_nil_iff.1 he).1⟩
    show (valuesOf a ++ valuesOf b).head? = some a.selectOne
    rw [List.head?_append, h1 hn]; rfl
  | range mn mx p =>
    refine ⟨fun _ => ?_, fun he => ?_⟩
    · simp [valuesOf, List.range_succ_eq_map, Fv.selectOne]
    · simp [valuesOf] at he

theorem and_full (v : Byte) : v &&& 255 = v := by revert v; decide +kernel

theorem bitAnd_full {a k : Mask} {n : Nat} (g : a.Good 0 n) (h : ∀ i, i < n → k.byteAt i = 255) : a.bitAnd k = a := by
  induction a with
  | nil => rfl
  | cons e r ih =>
    obtain ⟨o, v⟩ := e
    simp only [Mask.bitAnd]
    rw [h o (g.range o v (by simp)).2, and_full, if_neg (g.top o v (by simp)).1, ih g.tail]

theorem ub_nil {y : Lay} (g : y.Good) (h : y.size = 0) : y.ub = [] := by
  rw [List.eq_nil_iff_forall_not_mem]
  rintro ⟨i, v⟩ hm
  have := (g.ub.range i v hm).2
  omega

theorem full_member {y : Lay} (g : y.Good) (h : y.size = 0) {n s : Nat} (hs : s ≤ n) (i : Nat) (hi : i < n) : (errUnusedBits n y.ub y.size s).byteAt i = 255 := by
  have gm := (errUb_member g (off := s) (usz := n) (by omega)).good
  apply byte_ext
  intro b hb
  rw [getLsbD_255 ⟨b, hb⟩]
  exact (byteAt_bit gm).mpr ((Found.unused_member hb (by omega) g).mpr ⟨hi, hb, by omega⟩)

theorem self_member {x : Lay} : errUnusedBits x.size x.ub x.size 0 = x.ub := by
  simp [errUnusedBits, Mask.bitOr_eq, padMask, Mask.shift_zero, Mask.shift]

theorem search_empty {x y : Lay} (gx : x.Good) (gy : y.Good) (h0 : y.size = 0) (hv : valuesOf x.fv = []) (hu : x.ub = []) (fuel s : Nat) (hs : s ≤ x.size) :
    search x.size x.fv (errUnusedBits x.size x.ub x.size 0) y.fv y.ub y.size y.align fuel s = ⟨0, .bit, []⟩ := by
  induction fuel generalizing s with
  | zero => rfl
  | succ fuel ih =>
    have f1 := select_find (f := y.fv.shift s) (Fv.wf_shift gy.fvWF) (errUnusedBits x.size x.ub x.size 0)
    have f2 := select_find (f := x.fv) gx.fvWF (errUnusedBits x.size y.ub y.size s)
    rw [valuesOf_shift, values_empty (f := y.fv) (fun o ho => by have := gy.fvRange o ho; omega)] at f1
    rw [hv] at f2
    unfold search
    dsimp only
    rw [f1, f2, self_member, hu]
    simp only [List.map_nil, List.find?_nil, Option.getD_none, Mask.bitAnd]
    split
    · have := ih (y.align + s) (by omega)
      rw [self_member, hu] at this
      exact this
    · rfl

theorem inner_unit {x y : Lay} (gx : x.Good) (gy : y.Good) (ax : Ascending x.ub) (h0 : y.size = 0) (hx : x.size % max x.align y.align = 0)
    (hs : x.fv.selectOne ≠ [] ∨ valuesOf x.fv = []) :
    (larger meant (docOf x) (docOf y)).okShift = 0 ∧ (inner x y).errShift = (larger meant (docOf x) (docOf y)).errShift ∧
    (inner x y).det = detOf (larger meant (docOf x) (docOf y)).tag ∧
    SameBits (Sum.unionSize x y 0 0) (inner x y).exported (larger meant (docOf x) (docOf y)).unbits := by
  have en : Sum.unionSize x y 0 0 = x.size := by
    unfold Sum.unionSize
    rw [h0, Nat.add_zero, Nat.add_zero, Nat.max_eq_left (Nat.zero_le _), nextMul_self hx]
  have d1 : x.size % x.align = 0 :=
    Nat.mod_eq_zero_of_dvd (Nat.dvd_trans (gx.align.dvd_max_left gy.align) (Nat.dvd_of_mod_eq_zero hx))
  have en' := unionSize_doc gx gy d1 (by rw [h0]; exact Nat.zero_mod _)
  have key := search_loop gx gy ax (n := x.size) (Nat.le_refl _) 8 0 (by omega)
  rw [Nat.zero_mul] at key
  have e : inner x y = search x.size x.fv (errUnusedBits x.size x.ub x.size 0) y.fv y.ub y.size y.align 8 0 := by
    unfold inner
    rw [if_pos h0]
    by_cases hemp : valuesOf x.fv = [] ∧ x.ub = []
    · rw [search_empty gx gy h0 hemp.1 hemp.2 8 0 (Nat.zero_le _), (head_select gx.fvWF).2 hemp.1, hemp.2]; rfl
    · have f1 := select_find (f := y.fv.shift 0) (Fv.wf_shift gy.fvWF) (errUnusedBits x.size x.ub x.size 0)
      have f2 := select_find (f := x.fv) gx.fvWF (errUnusedBits x.size y.ub y.size 0)
      have full := full_member gy h0 (n := x.size) (s := 0) (Nat.zero_le _)
      rw [valuesOf_shift, values_empty (f := y.fv) (fun o ho => by have := gy.fvRange o ho; omega)] at f1
      have free : ∀ l ∈ valuesOf x.fv, (l.all (fun (o, _) => (errUnusedBits x.size y.ub y.size 0).hasFreeByteAt o)) = true := by
        intro l hl
        rw [List.all_eq_true]
        intro e he
        exact (free_byteAt (errUb_member gy (off := 0) (usz := x.size) (by omega)).good).2 (full _ (gx.fvRange _ (values_offsets _ l hl e he)))
      have f3 : (x.fv.selectFrom (errUnusedBits x.size y.ub y.size 0)).resolve = x.fv.selectOne := by
        rw [f2]
        rcases hs with h | h
        · have hh := (head_select gx.fvWF).1 h
          cases hv : valuesOf x.fv with
          | nil => rw [hv] at hh; cases hh
          | cons l r =>
            rw [hv] at hh
            have := free l (by rw [hv]; simp)
            rw [List.find?_cons]
            dsimp only
            rw [this]
            simpa using hh
        · rw [h, (head_select gx.fvWF).2 h]; rfl
      have ne : x.fv.selectOne ≠ [] ∨ x.ub ≠ [] := by
        rcases hs with h | h
        · exact .inl h
        · exact .inr (fun hu => hemp ⟨h, hu⟩)
      unfold search
      dsimp only
      rw [f1, f3, self_member, bitAnd_full gx.ub full]
      unfold withUnit
      simp only [List.map_nil, List.find?_nil, Option.getD_none]
      cases h1 : x.fv.selectOne with
      | cons e r => rfl
      | nil =>
        cases h2 : x.ub with
        | cons e r => rfl
        | nil => exact absurd ne (by simp [h1, h2])
  rw [e, en]
  unfold larger
  rw [en', en]
  exact key

/-- C114: `Option<T>`, and a `Result` with a variant that is empty, are laid out as the document says, provided that the first field with forbidden values is the first
field, or that there are none. -/
theorem C114_empty_partial {a b : Ty} (ha : a.WF) (hb : b.WF) (h0 : b.lay.size = 0) (hs : a.lay.size % max a.lay.align b.lay.align = 0)
    (hf : a.lay.fv.selectOne ≠ [] ∨ valuesOf a.lay.fv = []) : Agrees meant a.lay b.lay ∧ Agrees meant b.lay a.lay := by
  have vb : valuesOf b.lay.fv = [] := values_empty (fun o ho => by have := (ty_good hb).fvRange o ho; omega)
  refine ⟨agrees_of (ty_good ha) (ty_good hb) (fun _ => inner_unit (ty_good ha) (ty_good hb) (ty_asc ha) h0 hs hf) (fun h => by omega), ?_⟩
  refine agrees_of (ty_good hb) (ty_good ha) (fun h => ?_) (fun _ => inner_unit (ty_good ha) (ty_good hb) (ty_asc ha) h0 hs hf)
  exact inner_unit (ty_good hb) (ty_good ha) (ty_asc hb) (by omega) (by rw [h0]; exact Nat.zero_mod _) (.inr vb)

theorem value_nodup {f : Fv} (h : f.WF) : ∀ l ∈ valuesOf f, (l.map Prod.fst).Nodup := by
  induction f with
  | none => intro l hl; cases hl
  | byte p v r _ =>
    intro l hl
    rw [List.mem_singleton.1 (show l ∈ [bytesOf (.byte p v r)] from hl), ← bytes_select (f := .byte p v r) h.1]
    exact (Fv.selectOne_bytes h h.1).2.1
  | or a b iha ihb =>
    intro l hl
    simp only [valuesOf, List.mem_append] at hl
    exact hl.elim (iha h.1 l) (ihb h.2 l)
  | range mn mx p =>
    intro l hl
    simp only [valuesOf, List.mem_map] at hl
    obtain ⟨_, _, rfl⟩ := hl
    simp

/-- A memory that holds these bytes and zeros elsewhere. -/
theorem hold {l : List (Nat × Byte)} (h : (l.map Prod.fst).Nodup) : ∃ m : Mem, (∀ o v, (o, v) ∈ l → m o = v) ∧ ∀ o, o ∉ l.map Prod.fst → m o = 0 := by
  induction l with
  | nil => exact ⟨fun _ => 0, by simp, by simp⟩
  | cons e r ih =>
    obtain ⟨p, w⟩ := e
    rw [List.map_cons, List.nodup_cons] at h
    obtain ⟨m, h1, h2⟩ := ih h.2
    refine ⟨fun o => if o = p then w else m o, fun o v hm => ?_, fun o ho => ?_⟩
    · rcases List.mem_cons.1 hm with e | hr
      · cases e; simp
      · have : o ≠ p := by rintro rfl; exact h.1 (List.mem_map.2 ⟨_, hr, rfl⟩)
        simp [this, h1 o v hr]
    · simp only [List.map_cons, List.mem_cons, not_or] at ho
      simp [ho.1, h2 o ho.2]

/-- C114: with an empty variant, they agree only under that condition. -/
theorem C114_empty_iff {a b : Ty} (ha : a.WF) (hb : b.WF) (h0 : b.lay.size = 0) (hs : a.lay.size % max a.lay.align b.lay.align = 0) :
    Agrees meant a.lay b.lay ↔ a.lay.fv.selectOne ≠ [] ∨ valuesOf a.lay.fv = [] := by
  refine ⟨fun h => ?_, fun h => (C114_empty_partial ha hb h0 hs h).1⟩
  refine Classical.byContradiction fun hc => ?_
  obtain ⟨hc1, hc2⟩ := not_or.1 hc
  have hc1 := Classical.not_not.1 hc1
  have gx := ty_good ha
  have gy := ty_good hb
  have en : Sum.unionSize a.lay b.lay 0 0 = a.lay.size := by
    unfold Sum.unionSize
    rw [h0, Nat.add_zero, Nat.add_zero, Nat.max_eq_left (Nat.zero_le _), nextMul_self hs]
  have d1 : a.lay.size % a.lay.align = 0 :=
    Nat.mod_eq_zero_of_dvd (Nat.dvd_trans (gx.align.dvd_max_left gy.align) (Nat.dvd_of_mod_eq_zero hs))
  have en' := unionSize_doc gx gy d1 (by rw [h0]; exact Nat.zero_mod _)
  have key := (search_loop gx gy (ty_asc ha) (n := a.lay.size) (Nat.le_refl _) 8 0 (by omega)).2.2.1
  rw [Nat.zero_mul] at key
  obtain ⟨l, r, hl⟩ := List.exists_cons_of_ne_nil hc2
  have hlm : l ∈ valuesOf a.lay.fv := by rw [hl]; simp
  have f1 := select_find (f := b.lay.fv.shift 0) (Fv.wf_shift gy.fvWF) (errUnusedBits a.lay.size a.lay.ub a.lay.size 0)
  have f2 := select_find (f := a.lay.fv) gx.fvWF (errUnusedBits a.lay.size b.lay.ub b.lay.size 0)
  rw [valuesOf_shift, values_empty (f := b.lay.fv) (fun o ho => by have := gy.fvRange o ho; omega)] at f1
  have free : (l.all (fun (o, _) => (errUnusedBits a.lay.size b.lay.ub b.lay.size 0).hasFreeByteAt o)) = true := by
    rw [List.all_eq_true]
    intro e he
    exact (free_byteAt (errUb_member gy (off := 0) (usz := a.lay.size) (by omega)).good).2
      (full_member gy h0 (Nat.zero_le _) _ (gx.fvRange _ (values_offsets _ l hlm e he)))
  rw [hl, List.find?_cons] at f2
  dsimp only at f2
  rw [free] at f2
  simp only [Option.getD_some] at f2
  obtain ⟨e, t, rfl⟩ := List.exists_cons_of_ne_nil (valuesOf_ne _ l hlm)
  have hdet : detOf (determinant meant (docOf a.lay) (docOf b.lay)).tag = intoValueIsErr (e :: t) := by
    unfold determinant larger
    rw [if_neg (show ¬ (docOf a.lay).size < (docOf b.lay).size by show ¬ a.lay.size < b.lay.size; omega), en', en, ← key]
    unfold search
    dsimp only
    rw [f1, f2]
    rfl
  obtain ⟨m, m1, m2⟩ := hold (value_nodup gx.fvWF _ hlm)
  have doc : (determinant meant (docOf a.lay) (docOf b.lay)).tag.isOk m = false := by
    rw [← isOk_eq, hdet]; exact (into_isOk _ m).2 m1
  have whole : (determinant meant (docOf a.lay) (docOf b.lay)).tag.apart = false := by
    have := lay_eq (determinant meant (docOf a.lay) (docOf b.lay)).tag
    rw [hdet, into_lay] at this
    cases hq : (determinant meant (docOf a.lay) (docOf b.lay)).tag.apart with
    | false => rfl
    | true => rw [hq] at this; cases this
  have hd := h.apart
  rw [unionAt, whole] at hd
  have code := h.isOk m
  rw [doc, Sum.isOk] at code
  have prov : (provider a.lay b.lay).det = (withUnit [] a.lay.ub).det := by
    unfold provider inner
    rw [if_pos (by omega), if_pos h0, hc1]
  unfold detSize at hd
  rw [prov] at code hd
  cases hu : a.lay.ub with
  | nil =>
    rw [hu] at hd
    have hpos : 0 < resAlign a.lay b.lay := (gx.align.max gy.align).pos
    rw [show (withUnit [] []).det.lay.size = 1 from rfl, nextMul_one hpos] at hd
    simp at hd
    omega
  | cons e' r' =>
    obtain ⟨o, v⟩ := e'
    rw [hu] at code
    have hmem : (o, v) ∈ a.lay.ub := by rw [hu]; simp
    have ho : o ∉ (e :: t).map Prod.fst := by
      intro hm
      obtain ⟨⟨p, w⟩, hp, rfl⟩ := List.mem_map.1 hm
      exact gx.fvUsed _ (values_offsets _ _ hlm _ hp) v hmem
    simp [withUnit, Det.isOk, m2 o ho] at code

/-- `Option<(bool, u16)>`: the forbidden values of the `bool` are the first. -/
example : let a := Ty.tuple2 .bool .u16
    Agrees meant a.lay Ty.unit.lay ∧ (determinant meant (docOf a.lay) (docOf Ty.unit.lay)).tag = .valueIsErr [(0, 2)] ∧
    (determinant meant (docOf a.lay) (docOf Ty.unit.lay)).unbits = [0, 255, 0, 0] :=
  ⟨(C114_empty_partial (a := Ty.tuple2 .bool .u16) ⟨bool_wf, u16_wf⟩ unit_wf rfl (by decide) (.inl (by decide))).1, by decide +kernel, by decide +kernel⟩

/-- Refuted: an `Option` whose first forbidden values are not in the first field.  The document has `Option<(u8, bool)>` in 2 bytes, here it has 3. -/
theorem C114_option_refuted : let a := Ty.tuple2 .u8 .bool
    size meant (docOf a.lay) (docOf Ty.unit.lay) = 2 ∧ (determinant meant (docOf a.lay) (docOf Ty.unit.lay)).tag = .valueIsErr [(1, 2)] ∧
    (resultLay a.lay Ty.unit.lay).size = 3 ∧ (provider a.lay Ty.unit.lay).det = .bit := by decide +kernel

/-- C114: when the determinants agree, so do the sizes if and only if the larger size is a multiple of the larger alignment. -/
theorem C114_size {r : Reading} {a b : Ty} (ha : a.WF) (hb : b.WF) (h : Agrees r a.lay b.lay) :
    (resultLay a.lay b.lay).size = size r (docOf a.lay) (docOf b.lay) ↔ max a.lay.size b.lay.size % max a.lay.align b.lay.align = 0 := by
  have hpos : 0 < max a.lay.align b.lay.align := ((ty_good ha).align.max (ty_good hb).align).pos
  show detSize a.lay b.lay + max a.lay.size b.lay.size = unionAt r _ _ + alignUp (max a.lay.size b.lay.size) (max a.lay.align b.lay.align) ↔ _
  rw [h.apart, ← nextMul_eq hpos]
  constructor
  · intro e
    have e : max a.lay.size b.lay.size = nextMul (max a.lay.size b.lay.size) (max a.lay.align b.lay.align) := by omega
    rw [e]; exact nextMul_mod hpos
  · intro e; rw [nextMul_self e]

/-- Refuted: `Result<[u8; 5], u32>` has 8 bytes in the document and 5 here. -/
theorem C114_size_refuted : size meant (docOf (Ty.array .u8 5).lay) (docOf Ty.u32.lay) = 8 ∧ (resultLay (Ty.array .u8 5).lay Ty.u32.lay).size = 5 := by
  decide +kernel

/-- What the document says of `Option<Option<bool>>` (repr-stabby.md:125): it occupies 2 bytes. -/
theorem C114_option_option : let o := (Ty.result .bool .unit).lay
    size meant (docOf o) (docOf Ty.unit.lay) = 2 ∧ (resultLay o Ty.unit.lay).size = 2 := by decide +kernel

/-! ### The document as it is written -/

/-- Whether the determinant is a forbidden value. -/
def byValue : Tag → Bool
  | .valueIsErr _ => true
  | .not t => byValue t
  | _ => false

/-- C114: read literally, the document returns the same determinants, but those that are forbidden values are the wrong way around. -/
theorem C114_polarity (s : Bool) (x y : Doc) :
    (determinant ⟨s, false⟩ x y).okShift = (determinant ⟨s, true⟩ x y).okShift ∧ (determinant ⟨s, false⟩ x y).errShift = (determinant ⟨s, true⟩ x y).errShift ∧
    (determinant ⟨s, false⟩ x y).unbits = (determinant ⟨s, true⟩ x y).unbits ∧
    ∀ m, (determinant ⟨s, false⟩ x y).tag.isOk m = ((determinant ⟨s, true⟩ x y).tag.isOk m ^^ byValue (determinant ⟨s, true⟩ x y).tag) := by
  have key : ∀ (x y : Doc) (d : List Byte) (n fuel i : Nat),
      (loop ⟨s, false⟩ x y d n fuel i).okShift = (loop ⟨s, true⟩ x y d n fuel i).okShift ∧ (loop ⟨s, false⟩ x y d n fuel i).errShift = (loop ⟨s, true⟩ x y d n fuel i).errShift ∧
      (loop ⟨s, false⟩ x y d n fuel i).unbits = (loop ⟨s, true⟩ x y d n fuel i).unbits ∧
      ∀ m, (loop ⟨s, false⟩ x y d n fuel i).tag.isOk m = ((loop ⟨s, true⟩ x y d n fuel i).tag.isOk m ^^ byValue (loop ⟨s, true⟩ x y d n fuel i).tag) := by
    intro x y d n fuel
    induction fuel with
    | zero => intro i; simp [loop, byValue]
    | succ fuel ih =>
      intro i
      unfold loop
      dsimp only
      generalize List.find? _ (if s = true then _ else _) = A
      generalize List.find? _ x.fvs = B
      generalize extractBit _ = C
      cases A with
      | some fv => simp [Tag.isOk, byValue]
      | none =>
        cases B with
        | some fv => simp [Tag.isOk, byValue]
        | none =>
          cases C with
          | some q => simp [Tag.isOk, byValue]
          | none =>
            by_cases hf : y.size + i * y.align + y.align > n
            · simp only [hf, if_true]; simp [Tag.isOk, byValue]
            · simp only [hf, if_false]; exact ih _
  unfold determinant larger
  split
  · obtain ⟨h1, h2, h3, h4⟩ := key y x (pad y.unbits (Document.unionSize y x)) (Document.unionSize y x) 8 0
    exact ⟨h2, h1, h3, fun m => by simp [Tag.isOk, byValue, h4 m]⟩
  · exact key x y _ _ 8 0

/-- Refuted: `Result<(u8, u16), (u8, bool)>` is `Err` in the document when it is `Ok` here. -/
theorem C114_polarity_refuted : let a := (Ty.tuple2 .u8 .u16).lay; let b := (Ty.tuple2 .u8 .bool).lay
    ∀ m, (determinant ⟨true, false⟩ (docOf a) (docOf b)).tag.isOk m = !Sum.isOk a b m := by
  intro a b m
  have h1 : (determinant ⟨true, false⟩ (docOf a) (docOf b)).tag = .valueIsErr [(1, 2)] := by decide +kernel
  have h2 : (provider a b).det = detOf (.not (.valueIsErr [(1, 2)])) := by decide +kernel
  rw [h1, Sum.isOk, h2, isOk_eq]
  simp [Tag.isOk]

/-- A byte is added for the tag. -/
def ownByte : Tag → Bool
  | .bit => true
  | .not t => ownByte t
  | _ => false

/-- C114: whether the document means the offset of `Err` to be added to its forbidden values or not makes no difference for variants that are told apart at the
start of their room. -/
theorem C114_offsets (e : Bool) (x y : Doc) (hx : 0 < x.align) (hy : 0 < y.align)
    (h : (determinant ⟨true, e⟩ x y).okShift = 0 ∧ (determinant ⟨true, e⟩ x y).errShift = 0) (hb : ownByte (determinant ⟨true, e⟩ x y).tag = false) :
    determinant ⟨false, e⟩ x y = determinant ⟨true, e⟩ x y := by
  have later : ∀ (x y : Doc) (d : List Byte) (n fuel i : Nat), 0 < y.align → 0 < i →
      (loop ⟨true, e⟩ x y d n fuel i).tag = .bit ∨ 0 < (loop ⟨true, e⟩ x y d n fuel i).errShift := by
    intro x y d n fuel
    induction fuel with
    | zero => intro i _ _; exact .inl rfl
    | succ fuel ih =>
      intro i hy hi
      have hp := Nat.mul_pos hi hy
      unfold loop
      dsimp only
      generalize List.find? _ (if true = true then _ else _) = A
      generalize List.find? _ x.fvs = B
      generalize extractBit _ = C
      cases A with
      | some fv => exact .inr hp
      | none =>
        cases B with
        | some fv => exact .inr hp
        | none =>
          cases C with
          | some q => exact .inr hp
          | none =>
            by_cases hf : y.size + i * y.align + y.align > n
            · simp only [hf, if_true, true_or]
            · simp only [hf, if_false]; exact ih _ hy (by omega)
  have key : ∀ (x y : Doc) (d : List Byte) (n : Nat), 0 < y.align → (loop ⟨true, e⟩ x y d n 8 0).errShift = 0 →
      ownByte (loop ⟨true, e⟩ x y d n 8 0).tag = false → loop ⟨false, e⟩ x y d n 8 0 = loop ⟨true, e⟩ x y d n 8 0 := by
    intro x y d n hy h0 hb
    have hm : y.fvs.map (fun fv => fv.map (fun (o, v) => (o + 0 * y.align, v))) = y.fvs := by
      simp
    unfold loop at h0 hb ⊢
    dsimp only at h0 hb ⊢
    simp only [if_true, Bool.false_eq_true, if_false, hm] at h0 hb ⊢
    generalize List.find? _ y.fvs = A at *
    generalize List.find? _ x.fvs = B at *
    generalize extractBit _ = C at *
    cases A with
    | some fv => rfl
    | none =>
      cases B with
      | some fv => rfl
      | none =>
        cases C with
        | some q => rfl
        | none =>
          by_cases hf : y.size + 0 * y.align + y.align > n
          · simp only [hf, if_true]
          · simp only [hf, if_false] at h0 hb
            rcases later x y d n 7 (0 + 1) hy (by omega) with h | h
            · rw [h] at hb; cases hb
            · omega
  unfold determinant larger at *
  split at h
  · rename_i hlt
    rw [if_pos hlt] at hb ⊢
    rw [if_pos hlt]
    dsimp only at h hb ⊢
    rw [key y x _ _ hx h.1 hb]
  · rename_i hlt
    rw [if_neg hlt] at hb ⊢
    rw [if_neg hlt]
    exact key x y _ _ hy h.2 hb

/-- With a forbidden value of `Err`: `Result<(u8, u16), (u8, bool)>`. -/
example : let a := docOf (Ty.tuple2 .u8 .u16).lay; let b := docOf (Ty.tuple2 .u8 .bool).lay
    (determinant ⟨true, true⟩ a b).errShift = 0 ∧ (determinant ⟨false, true⟩ a b).tag = .not (.valueIsErr [(1, 2)]) := by decide +kernel

/-- Refuted: without the offset of `Err`, its forbidden values are not found: `Result<(u8, u16), (bool, u8, u8)>` has 6 bytes in the document and 4 here. -/
theorem C114_offsets_refuted : let a := (Ty.tuple2 .u8 .u16).lay; let b := (Ty.tuple3 .bool .u8 .u8).lay
    size ⟨false, true⟩ (docOf a) (docOf b) = 6 ∧ (resultLay a b).size = 4 := by decide +kernel

/-! ### The byte of the tag -/

theorem withUnit_bit (f : List (Nat × Byte)) (u : Mask) (h : (withUnit f u).det.isNicheTrick = false) : (withUnit f u).det = .bit := by
  rcases f with _ | ⟨⟨o, v⟩, r⟩
  · rcases u with _ | ⟨⟨o, v⟩, r⟩
    · rfl
    · cases h
  · cases h

theorem inner_bit (x y : Lay) (h : (inner x y).det.isNicheTrick = false) : (inner x y).det = .bit := by
  have key : ∀ (n : Nat) (f : Fv) (u : Mask) (g : Fv) (w : Mask) (s a k o : Nat), (search n f u g w s a k o).det.isNicheTrick = false →
      (search n f u g w s a k o).det = .bit := by
    intro n f u g w s a k
    induction k with
    | zero => intro o _; rfl
    | succ k ih =>
      intro o h
      unfold search at h ⊢
      dsimp only at h ⊢
      generalize ((g.shift o).selectFrom u).resolve = A at *
      generalize (f.selectFrom (errUnusedBits n w s o)).resolve = B at *
      generalize u.bitAnd (errUnusedBits n w s o) = C at *
      rcases A with _ | ⟨⟨o, v⟩, r⟩
      · rcases B with _ | ⟨⟨o, v⟩, r⟩
        · rcases C with _ | ⟨⟨o, v⟩, r⟩
          · dsimp only at h ⊢
            split at h
            · rename_i hc
              rw [if_pos hc]; exact ih _ h
            · rename_i hc
              rw [if_neg hc]; rfl
          · cases h
        · cases h
      · cases h
  unfold inner at h ⊢
  split at h
  · rename_i hc
    rw [if_pos hc]; exact withUnit_bit _ _ h
  · rename_i hc
    rw [if_neg hc]; exact key _ _ _ _ _ _ _ _ _ h

/-- C114: the tag that is added when nothing tells the variants apart is 1 for the smaller variant (`Err`, if they have the same size), whatever is stored. -/
theorem C114_tag_byte (ok err : Lay) (h : (provider ok err).det.isNicheTrick = false) (src : Mem) :
    mkOk ok err src 0 = (if err.size ≤ ok.size then 0 else 1) ∧ mkErr ok err src 0 = (if err.size ≤ ok.size then 1 else 0) := by
  unfold mkOk mkErr
  unfold provider at h ⊢
  by_cases hc : ok.size ≥ err.size
  · simp only [hc, if_true] at h ⊢
    rw [inner_bit _ _ h]
    simp [writeSelf, Det.self, Mem.set]
  · simp only [hc, if_false] at h ⊢
    have h' : (inner err ok).det = .bit := inner_bit _ _ h
    rw [h']
    simp [writeSelf, Det.self, Mem.set]

example : (provider Ty.u8.lay Ty.u16.lay).det.isNicheTrick = false ∧ (provider Ty.u16.lay Ty.u8.lay).det.isNicheTrick = false := by decide +kernel

/-- Refuted: README.md:55 says that the tag is 1 for `Ok`; that holds of `Result<u8, u16>` and not of `Result<u16, u8>`. -/
theorem C114_readme_refuted (src : Mem) : mkOk Ty.u8.lay Ty.u16.lay src 0 = 1 ∧ mkOk Ty.u16.lay Ty.u8.lay src 0 = 0 :=
  ⟨(C114_tag_byte Ty.u8.lay Ty.u16.lay (by decide +kernel) src).1.trans (by decide), (C114_tag_byte Ty.u16.lay Ty.u8.lay (by decide +kernel) src).1.trans (by decide)⟩

/-! ### Enums -/

/-- The same tree. -/
def shape : Document.Tree Ty → Sum.Tree
  | .leaf t => .leaf t
  | .node l r => .node (shape l) (shape r)

/-- C114: enums are the trees of the document. -/
theorem C114_tree (vs : List Ty) (h : vs ≠ []) : (binaryTree vs).map shape = some (build vs) := by
  induction hn : vs.length using Nat.strongRecOn generalizing vs with
  | _ n ih =>
    subst hn
    match vs, h with
    | [a], _ => simp [binaryTree, build, shape]
    | [a, b], _ => simp [binaryTree, build, shape]
    | a :: b :: c :: rest, _ =>
      have h1 := ih _ (by simp only [List.length_take, List.length_cons]; omega) ((a :: b :: c :: rest).take ((a :: b :: c :: rest).length / 2))
        (by intro h; have := congrArg List.length h; simp only [List.length_take, List.length_cons, List.length_nil] at this; omega) rfl
      have h2 := ih _ (by simp only [List.length_drop, List.length_cons]; omega) ((a :: b :: c :: rest).drop ((a :: b :: c :: rest).length / 2))
        (by intro h; have := congrArg List.length h; simp only [List.length_drop, List.length_cons, List.length_nil] at this; omega) rfl
      rw [Option.map_eq_some_iff] at h1 h2
      obtain ⟨l, hl, el⟩ := h1
      obtain ⟨r, hr, er⟩ := h2
      rw [binaryTree, build, dif_pos (by simp only [List.length_cons]; omega)]
      rw [hl, hr, ← el, ← er]
      rfl

example : (binaryTree [Ty.u8, .bool, .u16, .u32, .unit]).map shape = some (.node (.node (.leaf .u8) (.leaf .bool)) (.node (.leaf .u16) (.node (.leaf .u32) (.leaf .unit)))) := by
  simp [binaryTree, shape]

/-! ### Primitive types, structs and unions -/

/-- C114: the primitive types that the document describes (repr-stabby.md:10-18). -/
theorem C114_primitives : docOf Ty.unit.lay = ⟨0, 1, [], []⟩ ∧
    docOf Ty.bool.lay = ⟨1, 1, ((List.range 256).drop 2).map (fun v => [(0, BitVec.ofNat 8 v)]), [0]⟩ ∧
    docOf Ty.usize.lay = ⟨8, 8, [], List.replicate 8 0⟩ ∧
    docOf Ty.ref.lay = ⟨8, 8, [(List.range 8).map (fun o => (o, 0))], List.replicate 8 0⟩ := by decide +kernel

/-- The forbidden values of fields, in order, shifted by the offsets of the fields in a C struct. -/
def fieldValues (fs : List (Nat × Lay)) : List (List (Nat × Byte)) := fs.flatMap (fun (at_, t) => (docOf t).fvs.map (fun fv => fv.map (fun (o, v) => (o + at_, v))))

/-- C114: structs keep the forbidden values of all of their fields in order, shifted by the offsets of the fields (repr-stabby.md:20-23). -/
theorem C114_struct_values (f : Lay) (fs : List Lay) (h : ∀ t ∈ f :: fs, Pow2 t.align) : (docOf (structOf (f :: fs))).fvs = fieldValues (cPlace 0 (f :: fs)) := by
  have key : ∀ (fs : List Lay) (acc : Lay), (∀ t ∈ fs, Pow2 t.align) → valuesOf (nestFields acc fs).fv = valuesOf acc.fv ++ fieldValues (cPlace acc.size fs) := by
    intro fs
    induction fs with
    | nil => intro acc _; simp [nestFields, cPlace, fieldValues]
    | cons f fs ih =>
      intro acc ht
      have e : (acc.fieldPair f).size = alignUp acc.size f.align + f.size := by
        show f.size + nextMul acc.size f.align = _
        rw [nextMul_eq (ht f (by simp)).pos]; omega
      rw [nestFields, ih _ (fun t h => ht t (by simp [h])), e]
      show (valuesOf acc.fv ++ valuesOf (f.fv.shift (nextMul acc.size f.align))) ++ _ = _
      rw [valuesOf_shift, nextMul_eq (ht f (by simp)).pos, List.append_assoc]
      rfl
  show valuesOf (nestFields f fs).fv = _
  rw [key fs f (fun t ht => h t (by simp [ht]))]
  have e0 : alignUp 0 f.align = 0 := by rw [← nextMul_eq (h f (by simp)).pos]; exact nextMul_zero _
  show _ = (docOf f).fvs.map (fun fv => fv.map (fun (o, v) => (o + alignUp 0 f.align, v))) ++ fieldValues (cPlace (alignUp 0 f.align + f.size) fs)
  rw [e0, Nat.zero_add]
  congr 1
  simp [docOf]

theorem pair_unbits {a b : Lay} (ga : a.Good) (gb : b.Good) (i : Nat) (hi : i < (a.tuple2 b).size) :
    (docOf (a.tuple2 b)).unbits[i]? = some (
      if i < a.size then a.ub.byteAt i
      else if nextMul a.size b.align ≤ i ∧ i < nextMul a.size b.align + b.size then b.ub.byteAt (i - nextMul a.size b.align)
      else 255) := by
  have g : (a.tuple2 b).Good := (ga.fieldPair gb).struct
  have hle := le_nextMul a.size b.align
  show ((List.range _).map _)[i]? = _
  rw [List.getElem?_map, List.getElem?_range hi, Option.map_some, Option.some_inj]
  have hu : (a.tuple2 b).ub = (a.ub ++ ((padMask (nextMul a.size b.align - a.size)).shift a.size ++ b.ub.shift (nextMul a.size b.align))) ++
      (padMask ((a.tuple2 b).size - (b.size + nextMul a.size b.align))).shift (b.size + nextMul a.size b.align) := by
    show Mask.bitOr (Mask.bitOr a.ub (b.alignedAfter a.size).ub) _ = _
    rw [Mask.bitOr_eq, Mask.bitOr_eq, Lay.alignedAfter_ub]
    rfl
  apply byte_ext
  intro j hj
  rw [Bool.eq_iff_iff, byteAt_bit g.ub, hu]
  simp only [Mask.unused_append, Mask.unused_shift, Mask.unused_pad hj]
  have ra : a.ub.Unused i j → i < a.size := fun ⟨v, hm, _⟩ => (ga.ub.range i v hm).2
  have rb : ∀ k, b.ub.Unused k j → k < b.size := fun k ⟨v, hm, _⟩ => (gb.ub.range k v hm).2
  by_cases h1 : i < a.size
  · rw [if_pos h1, byteAt_bit ga.ub]
    constructor
    · rintro ((h | ⟨k, rfl, h⟩ | ⟨k, rfl, h⟩) | ⟨k, rfl, h⟩)
      · exact h
      all_goals omega
    · exact fun h => .inl (.inl h)
  · rw [if_neg h1]
    by_cases h2 : nextMul a.size b.align ≤ i ∧ i < nextMul a.size b.align + b.size
    · rw [if_pos h2, byteAt_bit gb.ub]
      constructor
      · rintro ((h | ⟨k, rfl, h⟩ | ⟨k, rfl, h⟩) | ⟨k, rfl, h⟩)
        · exact absurd (ra h) h1
        · omega
        · rwa [Nat.add_sub_cancel]
        · omega
      · exact fun h => .inl (.inr (.inr ⟨_, by omega, h⟩))
    · rw [if_neg h2]
      refine ⟨fun _ => getLsbD_255 ⟨j, hj⟩, fun _ => ?_⟩
      by_cases h3 : i < nextMul a.size b.align
      · exact .inl (.inr (.inl ⟨i - a.size, by omega, by omega⟩))
      · exact .inr ⟨i - (b.size + nextMul a.size b.align), by omega, by omega⟩

/-- C114: structs keep the unused bits of their fields, shifted by the offsets of the fields, and the bytes between and after the fields are unused as well. -/
theorem C114_struct_unbits {a b : Ty} (ha : a.WF) (hb : b.WF) (i : Nat) (hi : i < (a.tuple2 b).lay.size) :
    (docOf (a.tuple2 b).lay).unbits[i]? = some (
      if i < a.lay.size then a.lay.ub.byteAt i
      else if alignUp a.lay.size b.lay.align ≤ i ∧ i < alignUp a.lay.size b.lay.align + b.lay.size then b.lay.ub.byteAt (i - alignUp a.lay.size b.lay.align)
      else 255) := by
  rw [← nextMul_eq (ty_good hb).align.pos]
  exact pair_unbits (ty_good ha) (ty_good hb) i hi

/-- C114: enums with an explicit tag have no forbidden values; the bytes of the tag and of the union are used, those between the tag and the union, and after the union, are
not (repr-stabby.md:30). -/
theorem C114_tagged {tag : Lay} {payloads : List Lay} (gt : tag.Good) (ht : tag.ub = []) (hv : tag.fv = .none) (gp : ∀ f ∈ payloads, f.Good) :
    (docOf (enumOf tag payloads)).fvs = [] ∧ ∀ i, i < (enumOf tag payloads).size →
      (docOf (enumOf tag payloads)).unbits[i]? = some (
        if i < tag.size ∨ (alignUp tag.size (cAlign payloads) ≤ i ∧ i < alignUp tag.size (cAlign payloads) + cUnionSize payloads) then 0 else 255) := by
  have gu := Layout.nestUnion_good Lay.unit payloads Lay.Good.unit gp
  have hub := Layout.nestUnion_ub Lay.unit payloads rfl
  have hfv : ∀ (l : List Lay) (acc : Lay), acc.fv = .none → (nestUnion acc l).fv = .none := by
    intro l
    induction l with
    | nil => exact fun _ h => h
    | cons f l ih => exact fun acc _ => ih _ rfl
  have hsz : (nestUnion Lay.unit payloads).align = cAlign payloads ∧ (nestUnion Lay.unit payloads).size = cUnionSize payloads := by
    have := Layout.C07_union payloads (fun f hf => (gp f hf).align)
    exact ⟨this.2.1, this.1⟩
  constructor
  · show valuesOf tag.fv ++ valuesOf ((nestUnion Lay.unit payloads).fv.shift _) = []
    rw [hv, hfv payloads _ rfl]; rfl
  · intro i hi
    have := pair_unbits gt gu i hi
    rw [nextMul_eq gu.align.pos, hsz.1, hsz.2, ht, hub] at this
    refine Eq.trans this ?_
    simp only [Mask.byteAt]
    by_cases h1 : i < tag.size
    · simp [h1]
    · simp [h1]

example : (docOf (enumOf Ty.u8.lay [Ty.bool.lay, Ty.u16.lay])).unbits = [0, 255, 0, 0] := by decide +kernel

example : (docOf (Ty.tuple2 .bool .u16).lay).unbits = [0, 255, 0, 0] := by decide +kernel

/-- C114: unions have no niches (repr-stabby.md:25-26). -/
theorem C114_union (a b : Lay) : (docOf (a.union b)).fvs = [] ∧ ∀ v ∈ (docOf (a.union b)).unbits, v = 0 := by
  refine ⟨rfl, fun v hv => ?_⟩
  obtain ⟨i, _, rfl⟩ := List.mem_map.1 hv
  rfl

/-! ### Trait objects -/
open Verif.Macros.Traits in
/-- The methods of a trait in the order of their declarations. -/
def declared (items : List Item) : List Method := items.filterMap (fun i => match i with | .method m => some m | .assoc _ => none)

open Verif.Macros.Traits in
/-- C114: vtables hold the methods with `&self` in the order of their declarations, and then those with `&mut self`. -/
theorem C114_methods (items : List Item) (c : Bool) :
    (describe items c).methods = (declared items).filter (fun m => !m.mutable) ++ (declared items).filter (fun m => m.mutable) := by
  have key : ∀ (items : List Item) (d : Desc), (items.foldl addItem d).functions = d.functions ++ (declared items).filter (fun m => !m.mutable) ∧
      (items.foldl addItem d).mutFunctions = d.mutFunctions ++ (declared items).filter (fun m => m.mutable) := by
    intro items
    induction items with
    | nil => intro d; simp [declared]
    | cons i r ih =>
      intro d
      obtain ⟨h1, h2⟩ := ih (addItem d i)
      rw [List.foldl_cons, h1, h2]
      cases i with
      | assoc n => exact ⟨rfl, rfl⟩
      | method m =>
        have e : declared (.method m :: r) = m :: declared r := rfl
        rw [e]
        cases hm : m.mutable <;> simp [addItem, hm, List.filter_cons]
  obtain ⟨h1, h2⟩ := key items ⟨[], [], [], c⟩
  show (items.foldl addItem ⟨[], [], [], c⟩).functions ++ (items.foldl addItem ⟨[], [], [], c⟩).mutFunctions = _
  rw [h1, h2]; rfl

open Verif.Macros.Traits in
/-- C114: they are in the order of their declarations, as the document says, if and only if no method with `&mut self` is declared before one with `&self`. -/
theorem C114_methods_iff (items : List Item) (c : Bool) :
    (describe items c).methods = declared items ↔ (declared items).Pairwise (fun a b => a.mutable = true → b.mutable = true) := by
  rw [C114_methods]
  induction declared items with
  | nil => simp
  | cons m r ih =>
    rw [List.pairwise_cons, ← ih]
    cases hm : m.mutable
    · simp [List.filter_cons, hm]
    · simp only [List.filter_cons, hm, Bool.not_true, Bool.false_eq_true, if_false, if_true]
      constructor
      · intro h
        have none : r.filter (fun m => !m.mutable) = [] := by
          cases hf : r.filter (fun m => !m.mutable) with
          | nil => rfl
          | cons x t =>
            rw [hf, List.cons_append, List.cons.injEq] at h
            have : x ∈ r.filter (fun m => !m.mutable) := by rw [hf]; simp
            rw [h.1] at this
            simp [hm] at this
        rw [none, List.nil_append, List.cons.injEq] at h
        refine ⟨fun b hb _ => ?_, by rw [none]; exact h.2⟩
        rw [List.filter_eq_nil_iff] at none
        simpa using none b hb
      · rintro ⟨h1, h2⟩
        have none : r.filter (fun m => !m.mutable) = [] := by
          rw [List.filter_eq_nil_iff]; intro b hb; simp [h1 b hb trivial]
        rw [none, List.nil_append] at h2 ⊢
        rw [h2]

open Verif.Macros.Traits in
/-- Refuted: a trait that declares a method with `&mut self` first. -/
theorem C114_methods_refuted : let items := [Item.method ⟨0, true, [], none⟩, .method ⟨1, false, [], none⟩]
    (describe items true).slots = [1, 0] ∧ (declared items).map (·.name) = [0, 1] := by decide +kernel

end Verif.Props.Document
