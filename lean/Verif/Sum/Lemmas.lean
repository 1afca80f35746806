import Verif.Sum.Search
import Verif.Sum.Spec

/-! Soundness of `Result`, and of every type of the universe. -/
namespace Verif.Sum
open Verif.Layout

theorem tuple2_unit_asUint {n : Nat} (hn : 0 < n) : (Lay.tuple2 Lay.unit (asUint n)).ub = [] := by
  have : max 1 n = n := by omega
  simp [Lay.tuple2, Lay.struct, Lay.fieldPair, Lay.alignedAfter, Lay.unit, asUint, Lay.prim, nextMul_zero,
    Mask.bitOr_eq, padMask, Mask.shift, nextMul, this]

theorem tuple2_bit_asUint {n : Nat} (hn : 0 < n) :
    (Lay.tuple2 Det.bit.lay (asUint n)).ub = (0, 254) :: (padMask (n - 1)).shift 1 := by
  have : max 1 n = n := by omega
  simp only [Lay.tuple2, Lay.struct, Lay.fieldPair, Lay.alignedAfter, asUint, Lay.prim, Det.lay,
    Mask.bitOr_eq, padMask, Mask.shift, this, nextMul_one hn]
  have h2 : nextMul (n + n) n = n + n := nextMul_self (by simp)
  simp [h2, padMask, Mask.shift]

/-- The two shapes a `Result` can have. -/
inductive ResOk (ok err : Lay) : Prop where
  | niche (det0 : detSize ok err = 0) (self : ∀ b, (provider ok err).det.self b = none)
      (trick : (provider ok err).det.isNicheTrick = true)
      (ub : (resultLay ok err).ub = (provider ok err).exported)
      (sound : Sound ok err (okOffset ok err) (errOffset ok err) (provider ok err).det
        (provider ok err).exported (unionSize ok err 0 0))
      (alOk : okOffset ok err % ok.align = 0) (alErr : errOffset ok err % err.align = 0)
  | bit (det : (provider ok err).det = .bit ∨ (provider ok err).det = .not .bit)
      (det1 : detSize ok err = resAlign ok err)
      (okOff : okOffset ok err = resAlign ok err) (errOff : errOffset ok err = resAlign ok err)
      (ub : (resultLay ok err).ub = (0, 254) :: (padMask (resAlign ok err - 1)).shift 1)

theorem res_ok {ok err : Lay} (gok : ok.Good) (gerr : err.Good) : ResOk ok err := by
  have hpos : 0 < resAlign ok err := (gok.align.max gerr.align).pos
  cases provider_ok gok gerr with
  | niche lay self trick sound alOk alErr =>
    have hd : detSize ok err = 0 := by unfold detSize; rw [lay]; exact nextMul_zero _
    have h1 : okOffset ok err = (provider ok err).okShift := by unfold okOffset; omega
    have h2 : errOffset ok err = (provider ok err).errShift := by unfold errOffset; omega
    refine .niche hd self trick ?_ ?_ ?_ ?_
    · unfold resultLay
      dsimp only
      rw [lay, tuple2_unit_asUint hpos, hd, Mask.shift_zero, Mask.bitOr_eq]; rfl
    · rw [h1, h2]; exact sound
    · rw [h1]; exact alOk
    · rw [h2]; exact alErr
  | bit hok herr det exp =>
    have hl : (provider ok err).det.lay = Det.bit.lay := by rcases det with h | h <;> rw [h] <;> rfl
    have hd : detSize ok err = resAlign ok err := by
      unfold detSize; rw [hl]; exact nextMul_one hpos
    refine .bit det hd (by unfold okOffset; omega) (by unfold errOffset; omega) ?_
    unfold resultLay
    dsimp only
    rw [hl, tuple2_bit_asUint hpos, exp, Mask.bitOr_eq]
    simp [Mask.shift]

theorem bitMask_good {n : Nat} (hn : 0 < n) : Mask.Good ((0, 254) :: (padMask (n - 1)).shift 1) 0 n := by
  have h1 : Mask.Good [(0, (254 : Byte))] 0 1 :=
    ⟨by simp, by simp, by simp⟩
  have h2 := Mask.Good.padAt (n - 1) 1
  have := h1.append h2 (by omega) (by omega)
  exact this.mono (Nat.le_refl _) (by omega)

theorem unionSize_eq {ok err : Lay} (h : max ok.size err.size % max ok.align err.align = 0) :
    unionSize ok err 0 0 = max ok.size err.size := by
  unfold unionSize; exact nextMul_self h

theorem result_sound {ok err : Lay} (gok : ok.Good) (gerr : err.Good)
    (hs : max ok.size err.size % max ok.align err.align = 0) :
    Sound ok err (okOffset ok err) (errOffset ok err) (provider ok err).det (resultLay ok err).ub
      (resultLay ok err).size := by
  have hpos : 0 < resAlign ok err := (gok.align.max gerr.align).pos
  cases res_ok gok gerr with
  | niche det0 self trick ub sound alOk alErr =>
    have : (resultLay ok err).size = unionSize ok err 0 0 := by
      rw [unionSize_eq hs]; unfold resultLay; dsimp only; omega
    rw [ub, this]; exact sound
  | bit det det1 okOff errOff ub =>
    have hsz : (resultLay ok err).size = resAlign ok err + max ok.size err.size := by
      unfold resultLay; dsimp only; rw [det1]
    have hgood := bitMask_good hpos
    have hE : ¬ Mask.Unused ((0, 254) :: (padMask (resAlign ok err - 1)).shift 1) 0 0 := by
      rw [Mask.unused_cons, Mask.unused_shift]
      rintro (⟨_, h⟩ | ⟨j, h, _⟩)
      · revert h; decide
      · omega
    have hnone : ∀ i b, ¬ Mask.Unused ((0, 254) :: (padMask (resAlign ok err - 1)).shift 1) (resAlign ok err + i) b := by
      rintro i b ⟨v, hm, _⟩
      have := (hgood.range _ _ hm).2; omega
    rw [ub, hsz, okOff, errOff]
    have hg' : Mask.Good ((0, 254) :: (padMask (resAlign ok err - 1)).shift 1) 0
      (resAlign ok err + max ok.size err.size) := hgood.mono (Nat.le_refl _) (by omega)
    rcases det with h | h <;> rw [h]
    · exact sound_bit hpos hpos (by omega) hE (fun i b _ _ h => absurd h (hnone i b))
        (fun i b _ _ h => absurd h (hnone i b)) hg' (by omega) (by omega)
    · exact Sound.swap (sound_bit hpos hpos (by omega) hE (fun i b _ _ h => absurd h (hnone i b))
        (fun i b _ _ h => absurd h (hnone i b)) hg' (by omega) (by omega))

theorem result_good {ok err : Lay} (gok : ok.Good) (gerr : err.Good)
    (hs : max ok.size err.size % max ok.align err.align = 0) : (resultLay ok err).Good :=
  ⟨gok.align.max gerr.align, (result_sound gok gerr hs).good, trivial, by simp [resultLay, Fv.offsets],
    by simp [resultLay, Fv.offsets]⟩

theorem write_at {m src : Mem} {o n i : Nat} (h : i < n) : m.write o n src (o + i) = src i := by
  unfold Mem.write
  rw [if_pos (by omega)]
  congr 1; omega

theorem mkOk_eq (ok err : Lay) (src : Mem) :
    mkOk ok err src = enc (provider ok err).det true (Mem.write (fun _ => 0) (okOffset ok err) ok.size src) := by
  simp [mkOk, enc]

theorem mkErr_eq (ok err : Lay) (src : Mem) :
    mkErr ok err src = enc (provider ok err).det false (Mem.write (fun _ => 0) (errOffset ok err) err.size src) := by
  simp [mkErr, enc]

theorem okKeeps_same {ok err : Lay} {o o' : Nat} {d : Det} {E : Mask} {size : Nat}
    (s : Sound ok err o o' d E size) (m src : Mem) :
    SameUsed ok.size ok.ub src ((enc d true (m.write o ok.size src)).at o) := by
  intro i hi b hb hu
  rw [Mem.at, s.okKeeps _ i b hi hb hu, write_at hi]

theorem errKeeps_same {ok err : Lay} {o o' : Nat} {d : Det} {E : Mask} {size : Nat}
    (s : Sound ok err o o' d E size) (m src : Mem) :
    SameUsed err.size err.ub src ((enc d false (m.write o' err.size src)).at o') := by
  intro i hi b hb hu
  rw [Mem.at, s.errKeeps _ i b hi hb hu, write_at hi]

theorem write_same (m src : Mem) (o n : Nat) (ub : Mask) : SameUsed n ub src ((m.write o n src).at o) := by
  intro i hi b hb hu
  rw [Mem.at, write_at hi]

theorem okGuard {ok err : Lay} (gok : ok.Good) (gerr : err.Good)
    (hs : max ok.size err.size % max ok.align err.align = 0) {m src : Mem}
    (hm : isOk ok err m = true) (hsrc : ¬ ok.fv.Forbids src) :
    isOk ok err (okGuardWrite ok err m src) = true ∧
      SameUsed ok.size ok.ub src (okPtr ok err (okGuardWrite ok err m src)) := by
  have s := result_sound gok gerr hs
  cases res_ok gok gerr with
  | niche det0 self trick ub sound alOk alErr =>
    have e : okGuardWrite ok err m src = enc (provider ok err).det true (m.write (okOffset ok err) ok.size src) := by
      simp [okGuardWrite, trick, enc, writeSelf, self]
    rw [e]
    refine ⟨s.okIs _ ?_, okKeeps_same s m src⟩
    rwa [← gok.forbids_congr (write_same m src _ _ _)]
  | bit det det1 okOff errOff ub =>
    have hpos : 0 < resAlign ok err := (gok.align.max gerr.align).pos
    have e : okGuardWrite ok err m src = m.write (okOffset ok err) ok.size src := by
      rcases det with h | h <;> simp [okGuardWrite, h, Det.isNicheTrick]
    rw [e]
    refine ⟨?_, write_same m src _ _ _⟩
    have h0 : m.write (okOffset ok err) ok.size src 0 = m 0 := by
      unfold Mem.write; rw [if_neg (by omega)]
    rw [← hm]
    unfold isOk
    rcases det with h | h <;> rw [h] <;> simp [Det.isOk, h0]

theorem errGuard {ok err : Lay} (gok : ok.Good) (gerr : err.Good)
    (hs : max ok.size err.size % max ok.align err.align = 0) {m src : Mem}
    (hm : isOk ok err m = false) (hsrc : ¬ err.fv.Forbids src) :
    isOk ok err (errGuardWrite ok err m src) = false ∧
      SameUsed err.size err.ub src (errPtr ok err (errGuardWrite ok err m src)) := by
  have s := result_sound gok gerr hs
  cases res_ok gok gerr with
  | niche det0 self trick ub sound alOk alErr =>
    have e : errGuardWrite ok err m src = enc (provider ok err).det false (m.write (errOffset ok err) err.size src) := by
      simp [errGuardWrite, trick, enc, writeSelf, self]
    rw [e]
    refine ⟨s.errIs _ ?_, errKeeps_same s m src⟩
    rwa [← gerr.forbids_congr (write_same m src _ _ _)]
  | bit det det1 okOff errOff ub =>
    have hpos : 0 < resAlign ok err := (gok.align.max gerr.align).pos
    have e : errGuardWrite ok err m src = m.write (errOffset ok err) err.size src := by
      rcases det with h | h <;> simp [errGuardWrite, h, Det.isNicheTrick]
    rw [e]
    refine ⟨?_, write_same m src _ _ _⟩
    have h0 : m.write (errOffset ok err) err.size src 0 = m 0 := by
      unfold Mem.write; rw [if_neg (by omega)]
    rw [← hm]
    unfold isOk
    rcases det with h | h <;> rw [h] <;> simp [Det.isOk, h0]

/-! ### Every type -/

theorem ty_good {t : Ty} (h : t.WF) : t.lay.Good := by
  induction t with
  | prim s a fv one ind => exact Lay.Good.prim h.1 h.2.1 h.2.2
  | fieldPair a b iha ihb => exact (iha h.1).fieldPair (ihb h.2)
  | struct t ih => exact (ih h).struct
  | alignedStruct t al ih => exact (ih h.1).alignedStruct h.2
  | union a b iha ihb => exact (iha h.1).union (ihb h.2)
  | array t n ih => exact (ih h).array n
  | result a b iha ihb => exact result_good (iha h.1) (ihb h.2.1) h.2.2

theorem repArray_congr {R : Val → Mem → Prop} {size : Nat}
    (hR : ∀ v m m', R v m → (∀ i, i < size → m i = m' i) → R v m') :
    ∀ n v m m', RepArray R size n v m → (∀ i, i < size * n → m i = m' i) → RepArray R size n v m' := by
  intro n
  induction n with
  | zero => intro v m m' h _; exact h
  | succ n ih =>
    intro v m m' h hm
    cases v with
    | pair a b =>
      refine ⟨hR a m m' h.1 (fun i hi => hm i ?_), ih b _ _ h.2 (fun i hi => hm (size + i) ?_)⟩
      · have := Nat.le_mul_of_pos_right size (Nat.succ_pos n); rw [Nat.succ_eq_add_one] at this; omega
      · rw [Nat.mul_succ]; omega
    | _ => exact h.elim

/-- A type's value only depends on the bits the type does not declare unused. -/
theorem rep_congr {t : Ty} (h : t.WF) {v : Val} {m m' : Mem} (hr : Rep t v m)
    (hm : SameUsed t.lay.size t.lay.ub m m') : Rep t v m' := by
  induction t generalizing v m m' with
  | prim s a fv one ind =>
    cases v with
    | raw bs =>
      obtain ⟨hl, hb, hf⟩ := hr
      refine ⟨hl, ?_, ?_⟩
      · intro i hi
        rw [← hm.byte (i := i) (by have := hl; simp only [Ty.lay, Lay.prim]; omega) (by simp [Ty.lay, Lay.prim])]
        exact hb i hi
      · exact fun hf' => hf (((Lay.Good.prim (one := one) (ind := ind) h.1 h.2.1 h.2.2).forbids_congr hm).2 hf')
    | _ => exact hr.elim
  | fieldPair a b iha ihb =>
    cases v with
    | pair va vb =>
      have gb := ty_good h.2
      have ga := ty_good h.1
      have hle := le_nextMul a.lay.size b.lay.align
      have he := nextMul_eq (n := a.lay.size) gb.align.pos
      refine ⟨iha h.1 hr.1 ?_, ihb h.2 hr.2 ?_⟩
      · intro i hi n hn hu
        refine hm i ?_ n hn ?_
        · simp only [Ty.lay, Lay.fieldPair, Lay.alignedAfter]; omega
        · rintro ⟨w, hw, hb⟩
          simp only [Ty.lay, Lay.fieldPair, Lay.alignedAfter, Mask.bitOr_eq, List.mem_append] at hw
          rcases hw with hw | hw | hw
          · exact hu ⟨w, hw, hb⟩
          · obtain ⟨j, hj, _⟩ := Mask.mem_shift.1 hw; omega
          · obtain ⟨j, hj, _⟩ := Mask.mem_shift.1 hw; omega
      · rw [← he]
        intro i hi n hn hu
        refine hm (nextMul a.lay.size b.lay.align + i) ?_ n hn ?_
        · simp only [Ty.lay, Lay.fieldPair, Lay.alignedAfter]; omega
        · rintro ⟨w, hw, hb⟩
          simp only [Ty.lay, Lay.fieldPair, Lay.alignedAfter, Mask.bitOr_eq, List.mem_append] at hw
          rcases hw with hw | hw | hw
          · have := (ga.ub.range _ _ hw).2; omega
          · obtain ⟨j, hj, hw⟩ := Mask.mem_shift.1 hw
            have := (Mask.mem_padMask.1 hw).1; omega
          · obtain ⟨j, hj, hw⟩ := Mask.mem_shift.1 hw
            have : i = j := by omega
            subst this; exact hu ⟨w, hw, hb⟩
    | _ => exact hr.elim
  | struct t ih =>
    refine ih h hr ?_
    intro i hi n hn hu
    refine hm i ?_ n hn ?_
    · have := le_nextMul t.lay.size t.lay.align
      simp only [Ty.lay, Lay.struct]; omega
    · rintro ⟨w, hw, hb⟩
      simp only [Ty.lay, Lay.struct, Mask.bitOr_eq, List.mem_append] at hw
      rcases hw with hw | hw
      · exact hu ⟨w, hw, hb⟩
      · obtain ⟨j, hj, _⟩ := Mask.mem_shift.1 hw; omega
  | alignedStruct t al ih =>
    refine ih h.1 hr ?_
    intro i hi n hn hu
    refine hm i ?_ n hn ?_
    · have := le_nextMul t.lay.size (max al t.lay.align)
      simp only [Ty.lay, Lay.alignedStruct]; omega
    · rintro ⟨w, hw, hb⟩
      simp only [Ty.lay, Lay.alignedStruct, Mask.bitOr_eq, List.mem_append] at hw
      rcases hw with hw | hw
      · exact hu ⟨w, hw, hb⟩
      · obtain ⟨j, hj, _⟩ := Mask.mem_shift.1 hw; omega
  | union a b iha ihb =>
    cases v with
    | raw bs =>
      refine ⟨hr.1, fun i hi => ?_⟩
      rw [← hm.byte (i := i) (by have := hr.1; simp only [Ty.lay]; omega) (by simp [Ty.lay, Lay.union])]
      exact hr.2 i hi
    | _ => exact hr.elim
  | array t n ih =>
    by_cases hn : n = 1
    · subst hn
      have hm' : SameUsed t.lay.size t.lay.ub m m' := by
        simpa [Ty.lay, Lay.array] using hm
      simp only [Rep] at hr ⊢
      cases v with
      | pair a b => exact ⟨ih h hr.1 hm', hr.2⟩
      | _ => exact hr.elim
    · simp only [Rep] at hr ⊢
      refine repArray_congr (R := Rep t) (fun v m m' hv hmm => ih h hv (fun i hi b hb _ => by rw [hmm i hi])) n v m m' hr ?_
      intro i hi
      exact hm.byte (by simpa [Ty.lay, Lay.array] using hi) (by simp [Ty.lay, Lay.array, hn])
  | result a b iha ihb =>
    have s := result_sound (ty_good h.1) (ty_good h.2.1) h.2.2
    have hst := s.stable m m' hm
    cases v with
    | ok v =>
      refine ⟨?_, iha h.1 hr.2 ?_⟩
      · have := hr.1; unfold isOk at this ⊢; rw [← hst]; exact this
      · intro i hi n hn hu
        exact hm _ (by have := s.okFits; simp only [Ty.lay]; omega) n hn (fun hE => hu (s.expOk i n hi hn hE))
    | err v =>
      refine ⟨?_, ihb h.2.1 hr.2 ?_⟩
      · have := hr.1; unfold isOk at this ⊢; rw [← hst]; exact this
      · intro i hi n hn hu
        exact hm _ (by have := s.errFits; simp only [Ty.lay]; omega) n hn (fun hE => hu (s.expErr i n hi hn hE))
    | _ => exact hr.elim

/-- No value of a type looks like one of its forbidden values. -/
theorem rep_not_forbidden {t : Ty} (h : t.WF) {v : Val} {m : Mem} (hr : Rep t v m) : ¬ t.lay.fv.Forbids m := by
  induction t generalizing v m with
  | prim s a fv one ind =>
    cases v with
    | raw bs => exact hr.2.2
    | _ => exact hr.elim
  | fieldPair a b iha ihb =>
    cases v with
    | pair va vb =>
      rintro (hf | hf)
      · exact iha h.1 hr.1 hf
      · have hf := Fv.forbids_shift.1 hf
        rw [nextMul_eq (ty_good h.2).align.pos] at hf
        exact ihb h.2 hr.2 hf
    | _ => exact hr.elim
  | struct t ih => exact ih h hr
  | alignedStruct t al ih => exact ih h.1 hr
  | union a b => exact fun hf => hf
  | array t n ih =>
    by_cases hn : n = 1
    · subst hn
      cases v with
      | pair a b => simpa [Ty.lay, Lay.array] using ih h hr.1
      | _ => exact hr.elim
    · simp [Ty.lay, Lay.array, hn, Fv.Forbids]
  | result a b => exact fun hf => hf

theorem raw_ext {bs bs' : List Byte} {m : Mem} {n : Nat} (h1 : bs.length = n) (h2 : bs'.length = n)
    (e1 : ∀ i (h : i < bs.length), m i = bs[i]) (e2 : ∀ i (h : i < bs'.length), m i = bs'[i]) : bs = bs' := by
  apply List.ext_getElem (by omega)
  intro i hi hi'
  rw [← e1 i hi, ← e2 i hi']

theorem repArray_det {R : Val → Mem → Prop} {size : Nat} (hR : ∀ v v' m, R v m → R v' m → v = v') :
    ∀ n v v' m, RepArray R size n v m → RepArray R size n v' m → v = v' := by
  intro n
  induction n with
  | zero => intro v v' m h h'; rw [show v = .nil from h, show v' = .nil from h']
  | succ n ih =>
    intro v v' m h h'
    cases v with
    | pair a b =>
      cases v' with
      | pair a' b' => rw [hR a a' m h.1 h'.1, ih b b' _ h.2 h'.2]
      | _ => exact h'.elim
    | _ => exact h.elim

/-- Memory represents at most one value. -/
theorem rep_det {t : Ty} {v v' : Val} {m : Mem} (hr : Rep t v m) (hr' : Rep t v' m) : v = v' := by
  induction t generalizing v v' m with
  | prim s a fv one ind =>
    cases v with
    | raw bs =>
      cases v' with
      | raw bs' => rw [raw_ext hr.1 hr'.1 hr.2.1 hr'.2.1]
      | _ => exact hr'.elim
    | _ => exact hr.elim
  | fieldPair a b iha ihb =>
    cases v with
    | pair x y =>
      cases v' with
      | pair x' y' => rw [iha hr.1 hr'.1, ihb hr.2 hr'.2]
      | _ => exact hr'.elim
    | _ => exact hr.elim
  | struct t ih => exact ih hr hr'
  | alignedStruct t al ih => exact ih hr hr'
  | union a b =>
    cases v with
    | raw bs =>
      cases v' with
      | raw bs' => rw [raw_ext hr.1 hr'.1 hr.2 hr'.2]
      | _ => exact hr'.elim
    | _ => exact hr.elim
  | array t n ih => exact repArray_det (R := Rep t) (fun v v' m h h' => ih h h') n v v' m hr hr'
  | result a b iha ihb =>
    cases v with
    | ok x =>
      cases v' with
      | ok x' => rw [iha hr.2 hr'.2]
      | err x' => have h1 := hr.1; have h2 := hr'.1; rw [h1] at h2; cases h2
      | _ => exact hr'.elim
    | err x =>
      cases v' with
      | err x' => rw [ihb hr.2 hr'.2]
      | ok x' => have h1 := hr.1; have h2 := hr'.1; rw [h1] at h2; cases h2
      | _ => exact hr'.elim
    | _ => exact hr.elim

end Verif.Sum
