import Verif.Sum.Variants
import Verif.Sum.Quiet
/-! Model of `MaybeResolved` (stabby-abi/src/future.rs:322-371) at the level of bytes.

The enum is a `Result<T, Result<(), F>>`; `poll` goes through `match_mut`, whose guards are alive while the closures replace the whole
enum through a raw pointer, and set the determinant of the *old* variant when they are dropped (result.rs:509-519, 552-562). -/
namespace Verif.Future
open Verif.Layout Verif.Sum

/-- The tree of variants of `MaybeResolved<T, F>` (future.rs:322-334): `Resolved(T)`, `Empty`, `Pending(F)`. -/
def mrTree (t f : Ty) : Tree := build [t, .unit, f]

/-- The second half of the variants, `Result<(), F>`. -/
def restTy (f : Ty) : Ty := .result .unit f
/-- `MaybeResolved<T, F>` as the macro lays it out. -/
def mrTy (t f : Ty) : Ty := .result t (restTy f)

/-- `MaybeResolved::Empty()`. -/
def emptyBytes (t f : Ty) : Mem := (mrTree t f).ctor 1 (fun _ => 0)

/-- `Drop for OkGuard` (result.rs:509-519). -/
def okGuardDrop (ok err : Lay) (m : Mem) : Mem := if (provider ok err).det.isNicheTrick then (provider ok err).det.ok m else m
/-- `Drop for ErrGuard` (result.rs:552-562). -/
def errGuardDrop (ok err : Lay) (m : Mem) : Mem := if (provider ok err).det.isNicheTrick then (provider ok err).det.err m else m

/-- What a call of `poll` does: the enum's bytes afterwards, the bytes of the value if it is `Poll::Ready`, and the `MaybeResolved` that is dropped
(`core::ptr::replace` returns the old one, whose drop runs the drop glue of the variant it is seen as). -/
structure Polled where
  mem : Mem
  out : Option Mem
  drop : Option (Nat × Mem)

/-- `MaybeResolved::poll` (future.rs:344-370).  `fut` is the inner future's `poll`: from the bytes of the future to its bytes afterwards and the bytes of
the value if it is ready.  Guards are dropped when the closures return, from the innermost to the outermost (enums.rs:518-525). -/
def mrPoll (t f : Ty) (fut : Mem → Mem × Option Mem) (m : Mem) : Polled :=
  let T := t.lay; let E := (restTy f).lay; let U := Ty.unit.lay; let F := f.lay
  if isOk T E m then
    -- `ptr::read(value)`, `ptr::write(inner, Empty())`, then the guard of `Ok`
    ⟨okGuardDrop T E (emptyBytes t f), some (okPtr T E m), none⟩
  else
    let e := errPtr T E m
    if isOk U F e then
      ⟨errGuardWrite T E m (okGuardDrop U F e), none, none⟩
    else
      match fut (errPtr U F e) with
      | (g, none) => ⟨errGuardWrite T E m (errGuardWrite U F e g), none, none⟩
      | (g, some v) =>
        -- the enum when `ptr::replace` reads it: the future wrote to itself, no guard was dropped yet
        let old := m.write (errOffset T E) E.size (e.write (errOffset U F) F.size g)
        let n := emptyBytes t f
        ⟨errGuardWrite T E n (errGuardDrop U F (errPtr T E n)), some v, some ((mrTree t f).dispatch 0 old)⟩

/-- Calls of `poll` one after the other: the bytes at the end, the results, and what was dropped. -/
def mrPolls (t f : Ty) : List (Mem → Mem × Option Mem) → Mem → Mem × List (Option Mem) × List (Option (Nat × Mem))
  | [], m => (m, [], [])
  | fut :: futs, m =>
    let p := mrPoll t f fut m
    let r := mrPolls t f futs p.mem
    (r.1, p.out :: r.2.1, p.drop :: r.2.2)

/-! ### Conditions under which it works -/

/-- The offsets a determinant looks at. -/
def detOffsets : Det → List Nat
  | .bit => [0]
  | .endd => []
  | .valueIsErr o _ tail => o :: detOffsets tail
  | .bitIsErr o _ => [o]
  | .not d => detOffsets d

/-- Setting the determinant of `Resolved` writes nothing, nor does setting the one of `Pending` among `Empty` and `Pending`, and the determinant of
`Resolved` is outside of the bytes of the other two. -/
structure Calm (t f : Ty) : Prop where
  ok : (provider t.lay (restTy f).lay).det.okQuiet = true
  err : (provider Ty.unit.lay f.lay).det.errQuiet = true
  outside : ∀ o ∈ detOffsets (provider t.lay (restTy f).lay).det,
    o < errOffset t.lay (restTy f).lay ∨ errOffset t.lay (restTy f).lay + (restTy f).lay.size ≤ o

/-! ### Lemmas -/

theorem mrTree_eq (t f : Ty) : mrTree t f = .node (.leaf t) (.node (.leaf .unit) (.leaf f)) := by
  simp [mrTree, build]

theorem mrTree_ty (t f : Ty) : (mrTree t f).ty = mrTy t f := by rw [mrTree_eq]; rfl

theorem mrTree_leaves (t f : Ty) : (mrTree t f).leaves = [t, .unit, f] := by rw [mrTree_eq]; rfl

theorem isOk_congr (d : Det) {m m' : Mem} (h : ∀ o ∈ detOffsets d, m o = m' o) : d.isOk m = d.isOk m' := by
  induction d with
  | bit => simp [Det.isOk, h 0 (by simp [detOffsets])]
  | endd => rfl
  | valueIsErr o v tail ih =>
    simp only [Det.isOk]
    rw [h o (by simp [detOffsets]), ih (fun p hp => h p (by simp [detOffsets, hp]))]
  | bitIsErr o k => simp [Det.isOk, h o (by simp [detOffsets])]
  | not d ih => simp only [Det.isOk]; rw [ih h]

theorem rep_unit (m : Mem) : Rep .unit (.raw []) m := ⟨rfl, by simp, by simp [Fv.Forbids]⟩

theorem emptyBytes_rep {t f : Ty} (h : (mrTy t f).WF) : Rep (mrTy t f) (.err (.ok (.raw []))) (emptyBytes t f) := by
  have h' : (mrTree t f).ty.WF := by rw [mrTree_ty]; exact h
  have := ctor_rep (t := mrTree t f) h' (i := 1) (ty := .unit) (by rw [mrTree_leaves]; rfl) (v := .raw []) (src := fun _ => 0) (rep_unit _)
  rw [mrTree_ty] at this
  rw [mrTree_eq] at this
  have hs : emptyBytes t f = Tree.ctor (.node (.leaf t) (.node (.leaf .unit) (.leaf f))) 1 (fun _ => 0) := by unfold emptyBytes; rw [mrTree_eq]
  rw [hs]
  exact this

/-- A guard that writes nothing. -/
theorem okGuardDrop_quiet {ok err : Lay} (h : (provider ok err).det.okQuiet = true) (m : Mem) : okGuardDrop ok err m = m := by
  unfold okGuardDrop; split
  · exact (Det.quiet _).1 h m
  · rfl

theorem errGuardDrop_quiet {ok err : Lay} (h : (provider ok err).det.errQuiet = true) (m : Mem) : errGuardDrop ok err m = m := by
  unfold errGuardDrop; split
  · exact (Det.quiet _).2 h m
  · rfl

theorem errGuardWrite_quiet {ok err : Lay} (h : (provider ok err).det.errQuiet = true) (m src : Mem) :
    errGuardWrite ok err m src = m.write (errOffset ok err) err.size src := by
  unfold errGuardWrite; dsimp only; split
  · exact (Det.quiet _).2 h _
  · rfl

theorem okGuardDrop_loud {ok err : Lay} (go : ok.Good) (ge : err.Good) (h : (provider ok err).det.okQuiet = false) (m : Mem) :
    isOk ok err (okGuardDrop ok err m) = true := by
  unfold okGuardDrop isOk
  rw [if_pos ((Det.loud_trick _).1 h)]
  exact (provider_shape go ge).loud.1 h m

theorem errGuardDrop_loud {ok err : Lay} (go : ok.Good) (ge : err.Good) (h : (provider ok err).det.errQuiet = false) (m : Mem) :
    isOk ok err (errGuardDrop ok err m) = false := by
  unfold errGuardDrop isOk
  rw [if_pos ((Det.loud_trick _).2 h)]
  exact (provider_shape go ge).loud.2 h m

/-- Writing back what was read, except for unused bits, and dropping the guard. -/
theorem okGuardDrop_rep {a b : Ty} (h : (Ty.result a b).WF) {v : Val} {m : Mem} (hr : Rep (.result a b) (.ok v) m) :
    Rep (.result a b) (.ok v) (okGuardDrop a.lay b.lay m) := by
  have e : okGuardDrop a.lay b.lay m = okGuardWrite a.lay b.lay m (okPtr a.lay b.lay m) := by
    unfold okGuardDrop okGuardWrite
    have : m.write (okOffset a.lay b.lay) a.lay.size (okPtr a.lay b.lay m) = m := by
      funext i
      unfold Mem.write okPtr Mem.at
      split
      · congr 1; omega
      · rfl
    rw [this]
  rw [e]
  obtain ⟨h1, h2⟩ := okGuard (ty_good h.1) (ty_good h.2.1) h.2.2 hr.1 (rep_not_forbidden h.1 hr.2)
  exact ⟨h1, rep_congr h.1 hr.2 h2⟩

theorem errGuardWrite_rep {a b : Ty} (h : (Ty.result a b).WF) {w : Val} {m src : Mem} (hm : isOk a.lay b.lay m = false) (hr : Rep b w src) :
    Rep (.result a b) (.err w) (errGuardWrite a.lay b.lay m src) := by
  obtain ⟨h1, h2⟩ := errGuard (ty_good h.1) (ty_good h.2.1) h.2.2 hm (rep_not_forbidden h.2.1 hr)
  exact ⟨h1, rep_congr h.2.1 hr h2⟩

end Verif.Future
