import Verif.Sum.Forget
import Verif.Vec.Forget
import Verif.Props.Cell
import Verif.Props.Vec

/-! Property C96. -/
namespace Verif.Props.Forget
open Verif.Layout Verif.Sum Verif.Props.Cell

/-! ### Guards of results -/

theorem write_out {m src : Mem} {o n i : Nat} (h : i < o ∨ o + n ≤ i) : m.write o n src i = m i := by
  unfold Mem.write
  rw [if_neg (by omega)]

/-- If the result has a tag of its own, or the payload has no unused bits: whatever is written through the guard of `Ok` before it is forgotten, the
result is `Ok` and holds what was written. -/
theorem C96_ok_partial (ok err : Ty) (h : (Ty.result ok err).WF) (hq : ok.lay.ub = [] ∨ max ok.lay.size err.lay.size < (Ty.result ok err).lay.size)
    (m src : Mem) (old new : Val) (hm : Rep (.result ok err) (.ok old) m) (hw : Rep ok new src) :
    Rep (.result ok err) (.ok new) (okForget ok.lay err.lay m src) := by
  have hp : Rep ok new (okPtr ok.lay err.lay (okForget ok.lay err.lay m src)) := rep_congr h.1 hw (write_same m src _ _ _)
  refine ⟨?_, hp⟩
  have same : (∀ o ∈ (provider ok.lay err.lay).det.reads, o < okOffset ok.lay err.lay ∨ okOffset ok.lay err.lay + ok.lay.size ≤ o) →
      isOk ok.lay err.lay (okForget ok.lay err.lay m src) = true := fun hr => by
    rw [← hm.1]; exact isOk_reads _ _ _ fun o ho => write_out (hr o ho)
  rcases hq with hq | hq
  · rcases (result_tell h).1 with ht | ht
    · refine same fun o ho => Classical.byContradiction fun hc => ?_
      obtain ⟨b, hb, w, hw, _⟩ := ht o ho (o - okOffset ok.lay err.lay) (by omega) (by omega)
      rw [hq] at hw; simp at hw
    · exact ht _ (rep_not_forbidden h.1 hp)
  · have hd : (Ty.result ok err).lay.size = detSize ok.lay err.lay + max ok.lay.size err.lay.size := rfl
    have hpos : 0 < resAlign ok.lay err.lay := ((ty_good h.1).align.max (ty_good h.2.1).align).pos
    cases res_ok (ty_good h.1) (ty_good h.2.1) with
    | bit det det1 okOff errOff ub =>
      refine same fun o ho => .inl ?_
      have : o = 0 := by rcases det with h | h <;> simpa [h, Det.reads] using ho
      omega
    | niche det0 => omega

/-- The same for `Err`. -/
theorem C96_err_partial (ok err : Ty) (h : (Ty.result ok err).WF) (hq : err.lay.ub = [] ∨ max ok.lay.size err.lay.size < (Ty.result ok err).lay.size)
    (m src : Mem) (old new : Val) (hm : Rep (.result ok err) (.err old) m) (hw : Rep err new src) :
    Rep (.result ok err) (.err new) (errForget ok.lay err.lay m src) := by
  have hp : Rep err new (errPtr ok.lay err.lay (errForget ok.lay err.lay m src)) := rep_congr h.2.1 hw (write_same m src _ _ _)
  refine ⟨?_, hp⟩
  have same : (∀ o ∈ (provider ok.lay err.lay).det.reads, o < errOffset ok.lay err.lay ∨ errOffset ok.lay err.lay + err.lay.size ≤ o) →
      isOk ok.lay err.lay (errForget ok.lay err.lay m src) = false := fun hr => by
    rw [← hm.1]; exact isOk_reads _ _ _ fun o ho => write_out (hr o ho)
  rcases hq with hq | hq
  · rcases (result_tell h).2 with ht | ht
    · refine same fun o ho => Classical.byContradiction fun hc => ?_
      obtain ⟨b, hb, w, hw, _⟩ := ht o ho (o - errOffset ok.lay err.lay) (by omega) (by omega)
      rw [hq] at hw; simp at hw
    · exact ht _ (rep_not_forbidden h.2.1 hp)
  · have hd : (Ty.result ok err).lay.size = detSize ok.lay err.lay + max ok.lay.size err.lay.size := rfl
    have hpos : 0 < resAlign ok.lay err.lay := ((ty_good h.1).align.max (ty_good h.2.1).align).pos
    cases res_ok (ty_good h.1) (ty_good h.2.1) with
    | bit det det1 okOff errOff ub =>
      refine same fun o ho => .inl ?_
      have : o = 0 := by rcases det with h | h <;> simpa [h, Det.reads] using ho
      omega
    | niche det0 => omega

theorem bool_wf : Ty.bool.WF := ⟨⟨0, rfl⟩, show (2 : Byte) ≤ 255 by decide, by simp [Fv.offsets]⟩

theorem bool_rep (b : Byte) (h : b < 2) (m : Mem) (hm : m 0 = b) : Rep .bool (.raw [b]) m := by
  refine ⟨rfl, fun i hi => ?_, ?_⟩
  · have hi : i < 1 := hi
    match i, hi with
    | 0, _ => exact hm.symm ▸ rfl
  · simp only [Fv.Forbids, hm]
    exact (by decide +kernel : ∀ b : Byte, b < 2 → ¬ (2 ≤ b ∧ b ≤ 255)) b h

/-- `Result<bool, bool>` has a tag of its own, and `Option<bool>` has no unused bits: both are still `Ok` after writing `true` to `Ok(false)`. -/
example : (Ty.result .bool .bool).WF ∧ (Ty.result .bool .unit).WF ∧ Ty.bool.lay.ub = [] ∧ (Ty.result .bool .unit).lay.size = 1 ∧
    max Ty.bool.lay.size Ty.bool.lay.size < (Ty.result .bool .bool).lay.size ∧ Rep (.result .bool .unit) (.ok (.raw [0])) (fun _ => 0) ∧
    Rep .bool (.raw [1]) (fun _ => 1) ∧ Rep (.result .bool .bool) (.err (.raw [1])) (fun _ => 1) :=
  ⟨⟨bool_wf, bool_wf, by decide⟩, ⟨bool_wf, prim_wf ⟨0, rfl⟩, by decide⟩, rfl, by decide +kernel, by decide +kernel,
    ⟨by decide +kernel, bool_rep 0 (by decide) _ rfl⟩, bool_rep 1 (by decide) _ rfl,
    ⟨by decide +kernel, bool_rep 1 (by decide) _ rfl⟩⟩

/-- `Option<T>`, where `T` has a value: forgetting guards never changes the variant exactly if forbidden values of `T` are found (the first branch of
them has some), or `T` has no unused bits. -/
theorem C96_option_iff (t : Ty) (h : (Ty.result t .unit).WF) (v : Val) (hv : HasTy t v) :
    (∀ old new m src, Rep (.result t .unit) (.ok old) m → Rep t new src → Rep (.result t .unit) (.ok new) (okForget t.lay Ty.unit.lay m src)) ↔
      (t.lay.fv.selectOne ≠ [] ∨ t.lay.ub = []) := by
  have hprov : (provider t.lay Ty.unit.lay) = ⟨0, 0, (withUnit t.lay.fv.selectOne t.lay.ub).det, (withUnit t.lay.fv.selectOne t.lay.ub).exported⟩ := by
    unfold provider inner
    rw [if_pos (show t.lay.size ≥ Ty.unit.lay.size from Nat.zero_le _), if_pos (show Ty.unit.lay.size = 0 from rfl)]
    simp only [Prov.mk.injEq, true_and, and_true]
    unfold withUnit
    split <;> rfl
  constructor
  · intro ha
    refine Classical.byContradiction fun hc => ?_
    have hf : t.lay.fv.selectOne = [] := Classical.byContradiction fun e => hc (.inl e)
    cases hu : t.lay.ub with
    | nil => exact hc (.inr hu)
    | cons e tail =>
      obtain ⟨o, k⟩ := e
      have hmem : (o, k) ∈ t.lay.ub := by rw [hu]; simp
      have hk := ((ty_good h.1).ub.top o k hmem).1
      have ho := ((ty_good h.1).ub.range o k hmem).2
      have hdet : (provider t.lay Ty.unit.lay).det = .bitIsErr o (Mask.lowBit k) := by rw [hprov, hf, hu]; rfl
      have hd0 : detSize t.lay Ty.unit.lay = 0 := by
        cases res_ok (ty_good h.1) (ty_good h.2.1) with
        | bit det => rcases det with e | e <;> simp [hdet] at e
        | niche det0 => exact det0
      have hoff : okOffset t.lay Ty.unit.lay = 0 := by unfold okOffset; rw [hd0, hprov]
      have hr := encode_rep h.1 hv
      have hr' : Rep t v (fun i => if i = o then encode t v o ||| Mask.lowBit k else encode t v i) := by
        refine rep_congr h.1 hr fun i hi b hb hn => ?_
        by_cases hio : i = o
        · subst hio
          have : (Mask.lowBit k).getLsbD b = false := by
            cases hl : (Mask.lowBit k).getLsbD b with
            | false => rfl
            | true => exact absurd ⟨k, hmem, lowBit_bits k ⟨b, hb⟩ hl⟩ hn
          simp [this]
        · simp [hio]
      have hbad := (ha v v _ _ (mkOk_rep h hr) hr').1
      unfold isOk at hbad
      rw [hdet, Det.isOk, okForget, hoff] at hbad
      have hw : Mem.write (mkOk t.lay Ty.unit.lay (encode t v)) 0 t.lay.size (fun i => if i = o then encode t v o ||| Mask.lowBit k else encode t v i) o =
          encode t v o ||| Mask.lowBit k := by
        unfold Mem.write
        rw [if_pos (by omega)]
        simp
      rw [hw] at hbad
      have key : ∀ x y : Byte, y ≠ 0 → (x ||| y) &&& y ≠ 0 := by
        intro x y hy e
        apply hy
        have : (x ||| y) &&& y = y := by
          apply BitVec.eq_of_getLsbD_eq
          intro i hi
          simp only [BitVec.getLsbD_and, BitVec.getLsbD_or]
          cases x.getLsbD i <;> cases y.getLsbD i <;> rfl
        rw [← this, e]
      exact key _ _ (lowBit_ne_zero k hk) (of_decide_eq_true hbad)
  · rintro hq old new m src hm hw
    by_cases hub : t.lay.ub = []
    · exact C96_ok_partial t .unit h (.inl hub) m src old new hm hw
    · have hf : t.lay.fv.selectOne ≠ [] := hq.resolve_right hub
      have hp : Rep t new (okPtr t.lay Ty.unit.lay (okForget t.lay Ty.unit.lay m src)) := rep_congr h.1 hw (write_same m src _ _ _)
      refine ⟨?_, hp⟩
      have hd := Fv.selectOne_picks (ty_good h.1).fvWF hf
      have hdet : (provider t.lay Ty.unit.lay).det = intoValueIsErr t.lay.fv.selectOne := by
        rw [hprov]
        cases hs : t.lay.fv.selectOne with
        | nil => exact absurd hs hf
        | cons e tail => rfl
      have hd0 : detSize t.lay Ty.unit.lay = 0 := by
        cases res_ok (ty_good h.1) (ty_good h.2.1) with
        | bit det =>
          cases hs : t.lay.fv.selectOne with
          | nil => exact absurd hs hf
          | cons e tail => rcases det with e | e <;> simp [hdet, hs, intoValueIsErr] at e
        | niche det0 => exact det0
      have hoff : okOffset t.lay Ty.unit.lay = 0 := by unfold okOffset; rw [hd0, hprov]
      have hx := rep_not_forbidden h.1 hp
      unfold okPtr at hx
      rw [hoff, show ∀ m : Mem, m.at 0 = m from fun m => funext fun i => by simp [Mem.at]] at hx
      show (provider t.lay Ty.unit.lay).det.isOk _ = true
      rw [hdet]
      cases hi : (intoValueIsErr t.lay.fv.selectOne).isOk (okForget t.lay Ty.unit.lay m src) with
      | true => rfl
      | false =>
        rw [into_isOk] at hi
        exact absurd (hd.forbidden _ hi) hx

/-- Refuted: `Some((1, 2)): Option<(u8, u16)>`.  Someone stores `(1, 3)` through the guard that `match_mut` passes to the closure, and forgets the guard:
if the byte of padding that was stored is 1, the option is `None`. -/
theorem C96_option_refuted : ∃ m src, Rep (.result (.tuple2 .u8 .u16) .unit) (.ok (.pair (.raw [1]) (.raw [2, 0]))) m ∧
    Rep (.tuple2 .u8 .u16) (.pair (.raw [1]) (.raw [3, 0])) src ∧
    Rep (.result (.tuple2 .u8 .u16) .unit) (.err (.raw [])) (okForget (Ty.tuple2 .u8 .u16).lay Ty.unit.lay m src) ∧
    Rep (.result (.tuple2 .u8 .u16) .unit) (.ok (.pair (.raw [1]) (.raw [3, 0]))) (okGuardWrite (Ty.tuple2 .u8 .u16).lay Ty.unit.lay m src) := by
  have hwf : (Ty.result (.tuple2 .u8 .u16) .unit).WF := ⟨⟨prim_wf ⟨0, rfl⟩, prim_wf ⟨1, rfl⟩⟩, prim_wf ⟨0, rfl⟩, by decide +kernel⟩
  have e2 : alignUp Ty.u8.lay.size Ty.u16.lay.align = 2 := by decide +kernel
  have r : ∀ (x : Byte) (m : Mem), m 0 = 1 → m 2 = x → m 3 = 0 → Rep (.tuple2 .u8 .u16) (.pair (.raw [1]) (.raw [x, 0])) m := by
    intro x m h0 h2 h3
    refine ⟨⟨rfl, fun i hi => ?_, fun h => h⟩, rfl, fun i hi => ?_, fun h => h⟩
    · have hi : i < 1 := hi
      match i, hi with
      | 0, _ => exact h0
    · have hi : i < 2 := hi
      rw [e2]
      match i, hi with
      | 0, _ => exact h2
      | 1, _ => exact h3
  have hm : Rep (.result (.tuple2 .u8 .u16) .unit) (.ok (.pair (.raw [1]) (.raw [2, 0]))) (fun i => if i = 0 then 1 else if i = 2 then 2 else 0) :=
    ⟨by decide +kernel, r 2 _ (by decide +kernel) (by decide +kernel) (by decide +kernel)⟩
  have hs : Rep (.tuple2 .u8 .u16) (.pair (.raw [1]) (.raw [3, 0])) (fun i => if i = 0 then 1 else if i = 1 then 1 else if i = 2 then 3 else 0) :=
    r 3 _ rfl rfl rfl
  refine ⟨_, _, hm, hs, ⟨by decide +kernel, ⟨rfl, fun i hi => absurd (show i < 0 from hi) (by omega), fun h => h⟩⟩, ?_⟩
  obtain ⟨h1, h2⟩ := okGuard (ty_good hwf.1) (ty_good hwf.2.1) hwf.2.2 hm.1 (rep_not_forbidden hwf.1 hs)
  exact ⟨h1, rep_congr hwf.1 hs h2⟩
example : HasTy (.tuple2 .u8 .u16) (.pair (.raw [1]) (.raw [2, 0])) ∧ (Ty.tuple2 .u8 .u16).lay.fv.selectOne = [] ∧ (Ty.tuple2 .u8 .u16).lay.ub = [(1, 255)] ∧
    Ty.bool.lay.fv.selectOne = [(0, 2)] := ⟨⟨⟨rfl, fun h => h⟩, rfl, fun h => h⟩, by decide +kernel, by decide +kernel, by decide +kernel⟩

/-! ### Drains of vectors -/

open Verif.Vec Verif.Props.Vec

/-- After any use of a vector: forgetting a `Drain` of it, after any number of calls to `next`, leaves a vector of the elements before the range.  Any
use of it after that is as of a new vector of these elements; in particular none of those that were taken from the drain, or left in it, is used or
dropped again. -/
theorem C96_drain {α : Type} (e : Env) (he : Sane e) (ops : List (Op α)) (ha : ∀ op ∈ ops, Args e op) (rs : List (Res α)) (s : St α)
    (hs : run e St.new ops = some (rs, s)) (f t k : Nat) (after : List (Op α)) (ha' : ∀ op ∈ after, Args e op) : ∃ l r s' rs' s'' l'',
      asSlice s = some (.refs l, s) ∧ drainForget s f t k = some (r, s') ∧ run e s' after = some (rs', s'') ∧ asSlice s'' = some (.refs l'', s'') ∧
      (if f ≤ t ∧ t ≤ l.length then
        r = .yielded (((l.take t).drop f).take k) ∧ SpecRun after (refusals e s' after) (l.take f) rs' l'' ∧
          (s''.dropped ++ outsAll after rs' ++ l'').Perm (s.dropped ++ after.flatMap Op.ins ++ l.take f)
      else r = .panic ∧ s' = s) := by
  obtain ⟨rs', s0, l, h1, h2, hb, _, _⟩ := Verif.Props.Vec.run_good he ops ha St.new [] (VInv.new e) rfl
  rw [hs] at h1; cases h1
  have view : ∀ (s : St α) (l : List α), VInv e s.v l → asSlice s = some (.refs l, s) := by
    intro s l h
    obtain ⟨rest, hd⟩ := h.data
    unfold asSlice
    rw [h.len, slice_spec s.v l rest hd _ _ (by omega)]; simp
  obtain ⟨rest, hd⟩ := h2.data
  by_cases hv : f ≤ t ∧ t ≤ l.length
  · obtain ⟨hft, htl⟩ := hv
    have hn : drainNew s f t = some ⟨setLen s f, f, t, f, l.length⟩ := by simp [drainNew, h2.len, hft, htl]
    have htk := drain_take (e := e) (setLen s f) l rest hd f t l.length htl k f hft
    have hi : VInv e (setLen s f).v (l.take f) := h2.setLen (l' := l.take f) f (by simp; omega) ⟨(l.drop f).map some ++ rest, by
      rw [hd, ← List.append_assoc, ← List.map_append, List.take_append_drop]⟩
    obtain ⟨rs2, s2, l2, g1, g2, g3, g4, g5⟩ := Verif.Props.Vec.run_good he after ha' (setLen s f) (l.take f) hi hb
    refine ⟨l, .yielded (((l.take t).drop f).take k), setLen s f, rs2, s2, l2, view _ _ h2, ?_, g1, view _ _ g2, ?_⟩
    · simp only [drainForget, hn, htk, Option.bind_eq_bind, Option.bind_some, Option.pure_def]
    · rw [if_pos ⟨hft, htl⟩]; exact ⟨rfl, g4, g5⟩
  · obtain ⟨rs2, s2, l2, g1, g2, g3, g4, g5⟩ := Verif.Props.Vec.run_good he after ha' s l h2 hb
    refine ⟨l, .panic, s, rs2, s2, l2, view _ _ h2, ?_, g1, view _ _ g2, ?_⟩
    · simp [drainForget, drainNew, h2.len, hv]
    · rw [if_neg hv]; exact ⟨rfl, rfl⟩
example : Sane u64Env ∧ (∀ op ∈ [Op.push 1, .push 2, .push 3], Args u64Env op) ∧
    run u64Env St.new [.push 1, .push 2, .push 3] = some ([.unit, .unit, .unit], sample) ∧
    (drainForget sample 1 3 1).map (fun p => (p.1, asSlice p.2 |>.map (·.1))) = some (.yielded [2], some (.refs [1])) :=
  ⟨C15_capacity_overflow_refuted.1, by simp [Args], rfl, rfl⟩

end Verif.Props.Forget
