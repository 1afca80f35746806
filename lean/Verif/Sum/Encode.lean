import Verif.Sum.Lemmas

/-! Every value of a type has a representation. -/
namespace Verif.Sum
open Verif.Layout

/-- Elements one after the other. -/
def encodeArray (E : Val → Mem) (size : Nat) : Nat → Val → Mem
  | n + 1, .pair v vs => fun i => if i < size then E v i else encodeArray E size n vs (i - size)
  | _, _ => fun _ => 0

/-- The bytes a program builds for a value: fields are written at their offsets, sums are built by
`Result::Ok` and `Result::Err`. -/
def encode : Ty → Val → Mem
  | .prim _ _ _ _ _, .raw bs => fun i => bs.getD i 0
  | .fieldPair a b, .pair va vb => fun i =>
    if i < a.lay.size then encode a va i else encode b vb (i - alignUp a.lay.size b.lay.align)
  | .struct t, v => encode t v
  | .alignedStruct t _, v => encode t v
  | .union _ _, .raw bs => fun i => bs.getD i 0
  | .array t n, v => encodeArray (encode t) t.lay.size n v
  | .result a b, .ok v => mkOk a.lay b.lay (encode a v)
  | .result a b, .err v => mkErr a.lay b.lay (encode b v)
  | _, _ => fun _ => 0

theorem mkOk_rep {a b : Ty} (h : (Ty.result a b).WF) {v : Val} {src : Mem} (hr : Rep a v src) :
    Rep (.result a b) (.ok v) (mkOk a.lay b.lay src) := by
  have s := result_sound (ty_good h.1) (ty_good h.2.1) h.2.2
  have hk := okKeeps_same s (fun _ => 0) src
  refine ⟨?_, ?_⟩
  · rw [mkOk_eq]
    refine s.okIs _ ?_
    rw [← (ty_good h.1).forbids_congr (write_same _ src _ _ _)]
    exact rep_not_forbidden h.1 hr
  · rw [mkOk_eq]
    exact rep_congr h.1 hr hk

theorem mkErr_rep {a b : Ty} (h : (Ty.result a b).WF) {v : Val} {src : Mem} (hr : Rep b v src) :
    Rep (.result a b) (.err v) (mkErr a.lay b.lay src) := by
  have s := result_sound (ty_good h.1) (ty_good h.2.1) h.2.2
  have hk := errKeeps_same s (fun _ => 0) src
  refine ⟨?_, ?_⟩
  · rw [mkErr_eq]
    refine s.errIs _ ?_
    rw [← (ty_good h.2.1).forbids_congr (write_same _ src _ _ _)]
    exact rep_not_forbidden h.2.1 hr
  · rw [mkErr_eq]
    exact rep_congr h.2.1 hr hk

theorem sameUsed_of_eq {n : Nat} {ub : Mask} {m m' : Mem} (h : ∀ i, i < n → m i = m' i) : SameUsed n ub m m' :=
  fun i hi b _ _ => by rw [h i hi]

theorem encodeArray_rep {t : Ty} (h : t.WF) {H : Val → Prop} (ih : ∀ v, H v → Rep t v (encode t v)) :
    ∀ n v, HasTyArray H n v → RepArray (Rep t) t.lay.size n v (encodeArray (encode t) t.lay.size n v) := by
  intro n
  induction n with
  | zero => intro v hv; exact hv
  | succ n ihn =>
    intro v hv
    cases v with
    | pair a b =>
      refine ⟨rep_congr h (ih a hv.1) (sameUsed_of_eq fun i hi => ?_), ?_⟩
      · simp [encodeArray, hi]
      · have e : (encodeArray (encode t) t.lay.size (n + 1) (.pair a b)).at t.lay.size =
            encodeArray (encode t) t.lay.size n b := by
          funext i
          simp only [Mem.at, encodeArray]
          rw [if_neg (by omega), Nat.add_sub_cancel_left]
        rw [e]
        exact ihn b hv.2
    | _ => exact hv.elim

theorem encode_rep {t : Ty} (h : t.WF) {v : Val} (hv : HasTy t v) : Rep t v (encode t v) := by
  induction t generalizing v with
  | prim s a fv one ind =>
    cases v with
    | raw bs =>
      refine ⟨hv.1, fun i hi => ?_, hv.2⟩
      simp [encode, List.getD, hi]
    | _ => exact hv.elim
  | fieldPair a b iha ihb =>
    cases v with
    | pair va vb =>
      have hle : a.lay.size ≤ alignUp a.lay.size b.lay.align := by
        rw [← nextMul_eq (ty_good h.2).align.pos]; exact le_nextMul _ _
      refine ⟨rep_congr h.1 (iha h.1 hv.1) (sameUsed_of_eq fun i hi => by simp [encode, hi]), ?_⟩
      have e : (encode (.fieldPair a b) (.pair va vb)).at (alignUp a.lay.size b.lay.align) = encode b vb := by
        funext i
        simp only [Mem.at, encode]
        rw [if_neg (by omega), Nat.add_sub_cancel_left]
      rw [e]
      exact ihb h.2 hv.2
    | _ => exact hv.elim
  | struct t ih => exact ih h hv
  | alignedStruct t al ih => exact ih h.1 hv
  | union a b =>
    cases v with
    | raw bs => exact ⟨hv, fun i hi => by simp [encode, List.getD, hi]⟩
    | _ => exact hv.elim
  | array t n ih =>
    have := encodeArray_rep (t := t) (H := HasTy t) h (fun v hv => ih h hv) n v hv
    exact this
  | result a b iha ihb =>
    cases v with
    | ok v => exact mkOk_rep h (iha h.1 hv)
    | err v => exact mkErr_rep h (ihb h.2.1 hv)
    | _ => exact hv.elim

end Verif.Sum
