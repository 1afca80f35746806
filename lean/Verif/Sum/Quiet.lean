import Verif.Sum.Search

/-! Which determinants write to the union when set to `ok`. -/
namespace Verif.Sum
open Verif.Layout

namespace Det
mutual
/-- Whether `IDeterminant::ok` leaves the union as it is. -/
def okQuiet : Det → Bool
  | bit => true
  | endd => true
  | valueIsErr _ _ tail => okQuiet tail
  | bitIsErr _ _ => false
  | not d => errQuiet d
/-- Whether `IDeterminant::err` leaves the union as it is. -/
def errQuiet : Det → Bool
  | bit => true
  | endd => true
  | valueIsErr _ _ _ => false
  | bitIsErr _ _ => false
  | not d => okQuiet d
end

theorem quiet (d : Det) : (d.okQuiet = true → ∀ m, d.ok m = m) ∧ (d.errQuiet = true → ∀ m, d.err m = m) := by
  induction d with
  | bit => exact ⟨fun _ m => by simp [ok], fun _ m => by simp [err]⟩
  | endd => exact ⟨fun _ m => by simp [ok], fun _ m => by simp [err]⟩
  | valueIsErr o v t ih =>
    refine ⟨fun h m => ?_, fun h => by simp [errQuiet] at h⟩
    simp only [okQuiet] at h; simp only [ok]; exact ih.1 h m
  | bitIsErr o k => exact ⟨fun h => by simp [okQuiet] at h, fun h => by simp [errQuiet] at h⟩
  | not d ih =>
    refine ⟨fun h m => ?_, fun h m => ?_⟩
    · simp only [okQuiet] at h; simp only [ok]; exact ih.2 h m
    · simp only [errQuiet] at h; simp only [err]; exact ih.1 h m

theorem loud_trick (d : Det) : (d.okQuiet = false → d.isNicheTrick = true) ∧ (d.errQuiet = false → d.isNicheTrick = true) := by
  induction d with
  | bit => exact ⟨fun h => by simp [okQuiet] at h, fun h => by simp [errQuiet] at h⟩
  | endd => exact ⟨fun h => by simp [okQuiet] at h, fun h => by simp [errQuiet] at h⟩
  | valueIsErr o v t ih => exact ⟨fun _ => rfl, fun _ => rfl⟩
  | bitIsErr o k => exact ⟨fun _ => rfl, fun _ => rfl⟩
  | not d ih => exact ⟨fun h => ih.2 (by simpa [okQuiet] using h), fun h => ih.1 (by simpa [errQuiet] using h)⟩
end Det

/-- The determinants the search can pick. -/
inductive Shape : Det → Prop where
  | into (l : List (Nat × Byte)) (h : (l.map Prod.fst).Nodup) : Shape (intoValueIsErr l)
  | bitIsErr (o : Nat) (k : Byte) (h : k ≠ 0) : Shape (.bitIsErr o k)
  | bit : Shape .bit
  | not {d : Det} (h : Shape d) : Shape (.not d)

theorem into_quiet (l : List (Nat × Byte)) : (intoValueIsErr l).okQuiet = true := by
  induction l with
  | nil => rfl
  | cons e r ih => obtain ⟨o, v⟩ := e; simpa [intoValueIsErr, Det.okQuiet] using ih

/-- A determinant that writes on `ok` is seen as `ok` afterwards, whatever the union held; same for `err`. -/
theorem Shape.loud {d : Det} (h : Shape d) : (d.okQuiet = false → ∀ m, d.isOk (d.ok m) = true) ∧
    (d.errQuiet = false → ∀ m, d.isOk (d.err m) = false) := by
  induction h with
  | into l h =>
    refine ⟨fun h => (by rw [into_quiet] at h; cases h), fun _ m => ?_⟩
    rw [into_isOk]
    intro o v hv
    exact into_err_mem m h hv
  | bitIsErr o k hk =>
    refine ⟨fun _ m => ?_, fun _ m => ?_⟩
    · simp only [Det.ok, Det.isOk, Mem.set, if_pos, decide_eq_true_eq]
      exact and_xor_255 _ _
    · simp only [Det.err, Det.isOk, Mem.set, if_pos, decide_eq_false_iff_not]
      exact or_and_ne_zero hk
  | bit => exact ⟨fun h => by simp [Det.okQuiet] at h, fun h => by simp [Det.errQuiet] at h⟩
  | not h ih =>
    refine ⟨fun hq m => ?_, fun hq m => ?_⟩
    · simp only [Det.okQuiet] at hq; simp only [Det.ok, Det.isOk, ih.2 hq m]; rfl
    · simp only [Det.errQuiet] at hq; simp only [Det.err, Det.isOk, ih.1 hq m]; rfl

theorem search_shape {ok err : Lay} {usz : Nat} {okUb : Mask} (gok : ok.Good) (gerr : err.Good)
    (mok : MemberMask okUb 0 usz ok) (budget off : Nat) (hoff : err.size + off ≤ usz) :
    Shape (search usz ok.fv okUb err.fv err.ub err.size err.align budget off).det := by
  induction budget generalizing off with
  | zero => exact .bit
  | succ n ih =>
    have merr := errUb_member gerr hoff
    have hEgood : (okUb.bitAnd (errUnusedBits usz err.ub err.size off)).Good 0 usz := mok.good.bitAnd merr.good
    unfold search
    dsimp only
    cases h1 : ((err.fv.shift off).selectFrom okUb).resolve with
    | cons e tail =>
      obtain ⟨o, v⟩ := e
      have hp := Fv.selectFrom_picks (k := okUb) (Fv.wf_shift (k := off) gerr.fvWF) (by rw [h1]; simp)
      rw [h1] at hp
      exact .not (.into _ hp.1.nodup)
    | nil =>
      cases h2 : (ok.fv.selectFrom (errUnusedBits usz err.ub err.size off)).resolve with
      | cons e tail =>
        obtain ⟨o, v⟩ := e
        have hp := Fv.selectFrom_picks (k := errUnusedBits usz err.ub err.size off) gok.fvWF (by rw [h2]; simp)
        rw [h2] at hp
        exact .into _ hp.1.nodup
      | nil =>
        cases h3 : okUb.bitAnd (errUnusedBits usz err.ub err.size off) with
        | cons e tail =>
          obtain ⟨o, v⟩ := e
          rw [h3] at hEgood
          exact .bitIsErr _ _ (lowBit_ne_zero v (hEgood.top o v (by simp)).1)
        | nil =>
          simp only
          split
          · exact ih _ (by omega)
          · exact .bit

theorem inner_shape {ok err : Lay} (gok : ok.Good) (gerr : err.Good) (h : err.size ≤ ok.size) : Shape (inner ok err).det := by
  have hu : ok.size ≤ unionSize ok err 0 0 := by
    have := le_nextMul (max (ok.size + 0) (err.size + 0)) (max ok.align err.align)
    unfold unionSize; omega
  unfold inner
  split
  · cases hf : ok.fv.selectOne with
    | cons e tail =>
      obtain ⟨o, v⟩ := e
      have hp : Fv.Picks ok.fv ok.fv.selectOne := Fv.selectOne_picks gok.fvWF (by rw [hf]; simp)
      rw [hf] at hp
      exact .into _ hp.nodup
    | nil =>
      cases hub : ok.ub with
      | nil => exact .bit
      | cons e tail =>
        obtain ⟨o, v⟩ := e
        have g := gok.ub
        rw [hub] at g
        exact .bitIsErr _ _ (lowBit_ne_zero v (g.top o v (by simp)).1)
  · exact search_shape gok gerr (okUb_member gok hu) 8 0 (by omega)

theorem provider_shape {ok err : Lay} (gok : ok.Good) (gerr : err.Good) : Shape (provider ok err).det := by
  unfold provider
  split
  · rename_i h; exact inner_shape gok gerr h
  · rename_i h; exact .not (inner_shape gerr gok (by omega))

end Verif.Sum
