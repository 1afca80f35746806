import Verif.Props.Forget

/-! Property C96: exactly when guards of results can be forgotten. -/
namespace Verif.Props.ForgetIff
open Verif.Layout Verif.Sum Verif.Props.Cell Verif.Props.Forget

/-- What can happen to `is_ok` when the payload at `off`, which is there when `is_ok` answers `here`, is written without a guard: either each of its
bytes that `is_ok` reads can be given a value, changing only bits that the payload does not use, such that `is_ok` gives the other answer, or the
answer follows from the payload not being one of its forbidden values. -/
def Flip (t : Lay) (off : Nat) (d : Det) (here : Bool) : Prop :=
  (∀ o ∈ d.reads, ∀ i, i < t.size → o = off + i → ∀ m : Mem, d.isOk m = here →
    ∃ x : Byte, d.isOk (m.set o x) = !here ∧ ∀ b, b < 8 → ¬ t.ub.Unused i b → (m o).getLsbD b = x.getLsbD b) ∨
    ∀ m : Mem, ¬ t.fv.Forbids (m.at off) → d.isOk m = here

theorem Flip.not {t : Lay} {off : Nat} {d : Det} {here : Bool} (h : Flip t off d here) : Flip t off (.not d) (!here) := by
  rcases h with h | h
  · refine .inl fun o ho i hi e m hm => ?_
    obtain ⟨x, h1, h2⟩ := h o ho i hi e m (by simpa [Det.isOk] using hm)
    exact ⟨x, by rw [Det.isOk, h1], h2⟩
  · exact .inr fun m hm => by rw [Det.isOk, h m hm]

/-- The bytes of the list are not used by the payload. -/
theorem into_flip {t : Lay} {off : Nat} {l : List (Nat × Byte)}
    (hf : ∀ o v, (o, v) ∈ l → ∀ i, i < t.size → o = off + i → ∀ b, b < 8 → t.ub.Unused i b) : Flip t off (intoValueIsErr l) false := by
  refine .inl fun o ho i hi e m hm => ?_
  rw [into_reads, List.mem_map] at ho
  obtain ⟨⟨o, v⟩, ho, rfl⟩ := ho
  refine ⟨v ^^^ 1, ?_, fun b hb hn => absurd (hf o v ho i hi e b hb) hn⟩
  cases hc : (intoValueIsErr l).isOk (m.set o (v ^^^ 1)) with
  | true => rfl
  | false =>
    have := (into_isOk l _).1 hc o v ho
    simp only [Mem.set, if_true] at this
    exact absurd this ((by decide +kernel : ∀ v : Byte, v ^^^ 1 ≠ v) v)

/-- The payload has the values of the list among its forbidden ones. -/
theorem picks_flip {t : Lay} {off : Nat} {l : List (Nat × Byte)} (hp : Fv.Picks (t.fv.shift off) l) : Flip t off (intoValueIsErr l) true := by
  refine .inr fun m hm => ?_
  cases hc : (intoValueIsErr l).isOk m with
  | true => rfl
  | false =>
    rw [into_isOk] at hc
    exact absurd (Fv.forbids_shift.1 (hp.forbidden m hc)) hm

theorem or_and (x y : Byte) (hy : y ≠ 0) : (x ||| y) &&& y ≠ 0 := by
  intro e
  apply hy
  have : (x ||| y) &&& y = y := by
    apply BitVec.eq_of_getLsbD_eq
    intro i hi
    simp only [BitVec.getLsbD_and, BitVec.getLsbD_or]
    cases x.getLsbD i <;> cases y.getLsbD i <;> rfl
  rw [← this, e]

theorem clear_and (x y : Byte) : (x &&& ~~~ y) &&& y = 0 := by
  apply BitVec.eq_of_getLsbD_eq
  intro i hi
  simp only [BitVec.getLsbD_and, BitVec.getLsbD_not, hi, decide_true, Bool.true_and]
  cases x.getLsbD i <;> cases y.getLsbD i <;> simp

/-- The payload does not use the bit. -/
theorem bit_flip {t : Lay} {off o : Nat} {k : Byte} (hk : k ≠ 0)
    (hf : ∀ i, i < t.size → o = off + i → ∀ b, b < 8 → k.getLsbD b = true → t.ub.Unused i b) (here : Bool) : Flip t off (.bitIsErr o k) here := by
  refine .inl fun p hp i hi e m hm => ?_
  simp only [Det.reads, List.mem_singleton] at hp
  subst hp
  cases here with
  | true =>
    refine ⟨m p ||| k, ?_, fun b hb hn => ?_⟩
    · simp only [Det.isOk, Mem.set, if_true, Bool.not_true, decide_eq_false_iff_not]
      exact or_and _ _ hk
    · cases hc : k.getLsbD b with
      | true => exact absurd (hf i hi e b hb hc) hn
      | false => simp [hc]
  | false =>
    refine ⟨m p &&& ~~~ k, ?_, fun b hb hn => ?_⟩
    · simp only [Det.isOk, Mem.set, if_true, Bool.not_false, decide_eq_true_eq]
      exact clear_and _ _
    · cases hc : k.getLsbD b with
      | true => exact absurd (hf i hi e b hb hc) hn
      | false => simp only [BitVec.getLsbD_and, BitVec.getLsbD_not, hb, hc]; simp

theorem small_flip {t : Lay} (h0 : t.size = 0) (off : Nat) (d : Det) (here : Bool) : Flip t off d here := .inl fun _ _ i hi => by omega

theorem withUnit_flip {ok err : Lay} (g : ok.Good) (h0 : err.size = 0) : withUnit ok.fv.selectOne ok.ub = ⟨0, .bit, []⟩ ∨
    Flip ok 0 (withUnit ok.fv.selectOne ok.ub).det true ∧
      Flip err (withUnit ok.fv.selectOne ok.ub).errShift (withUnit ok.fv.selectOne ok.ub).det false := by
  cases hf : ok.fv.selectOne with
  | cons e tail =>
    obtain ⟨o, v⟩ := e
    have hp : Fv.Picks ok.fv ok.fv.selectOne := Fv.selectOne_picks g.fvWF (by rw [hf]; simp)
    rw [hf] at hp
    exact .inr ⟨picks_flip (by rw [Fv.shift_zero]; exact hp), small_flip h0 _ _ _⟩
  | nil =>
    cases hu : ok.ub with
    | nil => exact .inl rfl
    | cons e tail =>
      obtain ⟨o, v⟩ := e
      have hm : (o, v) ∈ ok.ub := by rw [hu]; simp
      refine .inr ⟨bit_flip (lowBit_ne_zero _ (g.ub.top o v hm).1) (fun i _ e b hb hk => ?_) _, small_flip h0 _ _ _⟩
      rw [Nat.zero_add] at e
      exact ⟨v, e ▸ hm, lowBit_bits v ⟨b, hb⟩ hk⟩

theorem search_flip {ok err : Lay} {usz : Nat} {okUb : Mask} (gok : ok.Good) (gerr : err.Good) (mok : MemberMask okUb 0 usz ok)
    (budget off : Nat) (hoff : err.size + off ≤ usz) :
    search usz ok.fv okUb err.fv err.ub err.size err.align budget off = ⟨0, .bit, []⟩ ∨
      Flip ok 0 (search usz ok.fv okUb err.fv err.ub err.size err.align budget off).det true ∧
      Flip err (search usz ok.fv okUb err.fv err.ub err.size err.align budget off).errShift
        (search usz ok.fv okUb err.fv err.ub err.size err.align budget off).det false := by
  induction budget generalizing off with
  | zero => exact .inl rfl
  | succ n ih =>
    have merr := errUb_member gerr hoff
    unfold search
    dsimp only
    cases h1 : ((err.fv.shift off).selectFrom okUb).resolve with
    | cons e tail =>
      obtain ⟨o, v⟩ := e
      have hp := Fv.selectFrom_picks (k := okUb) (Fv.wf_shift (k := off) gerr.fvWF) (by rw [h1]; simp)
      rw [h1] at hp
      obtain ⟨hp, hfree⟩ := hp
      refine .inr ⟨(into_flip fun p w hp' i hi e b hb => mok.unused hi ?_).not, (picks_flip hp).not⟩
      rw [← e]; exact Mask.unused_of_free (hfree _ _ hp') hb
    | nil =>
      cases h2 : (ok.fv.selectFrom (errUnusedBits usz err.ub err.size off)).resolve with
      | cons e tail =>
        obtain ⟨o, v⟩ := e
        have hp := Fv.selectFrom_picks (k := errUnusedBits usz err.ub err.size off) gok.fvWF (by rw [h2]; simp)
        rw [h2] at hp
        obtain ⟨hp, hfree⟩ := hp
        refine .inr ⟨picks_flip (by rw [Fv.shift_zero]; exact hp), into_flip fun p w hp' i hi e b hb => merr.unused hi ?_⟩
        rw [← e]; exact Mask.unused_of_free (hfree _ _ hp') hb
      | nil =>
        cases h3 : okUb.bitAnd (errUnusedBits usz err.ub err.size off) with
        | cons e tail =>
          obtain ⟨o, v⟩ := e
          have hm : (o, v) ∈ okUb.bitAnd (errUnusedBits usz err.ub err.size off) := by rw [h3]; simp
          have hk := lowBit_ne_zero _ ((mok.good.bitAnd merr.good).top o v hm).1
          refine .inr ⟨bit_flip hk (fun i hi e b hb hv => ?_) _, bit_flip hk (fun i hi e b hb hv => ?_) _⟩
          · have hu := Mask.unused_bitAnd (show Mask.Unused _ o b from ⟨v, hm, lowBit_bits v ⟨b, hb⟩ hv⟩)
            exact mok.unused hi (e ▸ hu.1)
          · have hu := Mask.unused_bitAnd (show Mask.Unused _ o b from ⟨v, hm, lowBit_bits v ⟨b, hb⟩ hv⟩)
            exact merr.unused hi (e ▸ hu.2)
        | nil =>
          simp only
          split
          · exact ih _ (by omega)
          · exact .inl rfl

theorem inner_flip {ok err : Lay} (gok : ok.Good) (gerr : err.Good) (h : err.size ≤ ok.size) :
    inner ok err = ⟨0, .bit, []⟩ ∨ Flip ok 0 (inner ok err).det true ∧ Flip err (inner ok err).errShift (inner ok err).det false := by
  have hu : ok.size ≤ unionSize ok err 0 0 := by
    have := le_nextMul (max (ok.size + 0) (err.size + 0)) (max ok.align err.align)
    unfold unionSize; omega
  unfold inner
  split
  · exact withUnit_flip gok ‹_›
  · exact search_flip gok gerr (okUb_member gok hu) 8 0 (by omega)

theorem result_flip {a b : Ty} (h : (Ty.result a b).WF) :
    Flip a.lay (okOffset a.lay b.lay) (provider a.lay b.lay).det true ∧ Flip b.lay (errOffset a.lay b.lay) (provider a.lay b.lay).det false := by
  obtain ⟨ha, hb, hs⟩ := h
  have ga := ty_good ha
  have gb := ty_good hb
  have hpos : 0 < resAlign a.lay b.lay := (ga.align.max gb.align).pos
  cases res_ok ga gb with
  | bit det det1 okOff errOff ub =>
    rw [okOff, errOff]
    have h0 : ∀ o ∈ (provider a.lay b.lay).det.reads, o = 0 := fun o ho => by rcases det with h | h <;> simpa [h, Det.reads] using ho
    exact ⟨.inl fun o ho i _ e => by have := h0 o ho; omega, .inl fun o ho i _ e => by have := h0 o ho; omega⟩
  | niche det0 self trick ub sound alOk alErr =>
    have h1 : okOffset a.lay b.lay = (provider a.lay b.lay).okShift := by unfold okOffset; omega
    have h2 : errOffset a.lay b.lay = (provider a.lay b.lay).errShift := by unfold errOffset; omega
    rw [h1, h2]
    unfold provider at trick ⊢
    split at trick
    · rename_i h
      rw [if_pos h]
      rcases inner_flip ga gb h with e | e
      · rw [e] at trick; cases trick
      · exact e
    · rename_i h
      rw [if_neg h]
      rcases inner_flip gb ga (by omega) with e | e
      · rw [e] at trick; cases trick
      · exact ⟨e.2.not, e.1.not⟩

/-! ### The theorem -/

/-- `is_ok` reads no byte of the payload of `n` bytes at `off`. -/
def Apart (d : Det) (off n : Nat) : Prop := ∀ o ∈ d.reads, o < off ∨ off + n ≤ o

theorem write_set (m : Mem) (off n i : Nat) (hi : i < n) (x : Byte) :
    m.write off n ((m.at off).set i x) = m.set (off + i) x := by
  funext j
  simp only [Mem.write, Mem.set, Mem.at]
  by_cases h : off ≤ j ∧ j < off + n
  · rw [if_pos h]
    by_cases hj : j = off + i
    · rw [if_pos (by omega), if_pos hj]
    · rw [if_neg (by omega), if_neg hj, show off + (j - off) = j by omega]
  · rw [if_neg h, if_neg (by omega)]

theorem flip_bad {t : Ty} (h : t.WF) {off : Nat} {d : Det} {here : Bool} {v : Val} {m : Mem} (hr : Rep t v (m.at off))
    (o i : Nat) (hi : i < t.lay.size) (ho : o = off + i)
    (hf : ∃ x : Byte, d.isOk (m.set o x) = !here ∧ ∀ b, b < 8 → ¬ t.lay.ub.Unused i b → (m o).getLsbD b = x.getLsbD b) :
    ∃ src, Rep t v src ∧ d.isOk (m.write off t.lay.size src) = !here := by
  obtain ⟨x, h1, h2⟩ := hf
  refine ⟨(m.at off).set i x, rep_congr h hr fun j hj b hb hn => ?_, by rw [write_set m off _ i hi x, ← ho]; exact h1⟩
  by_cases hji : j = i
  · subst hji
    simp only [Mem.set, if_true, Mem.at]
    rw [← ho]; exact h2 b hb hn
  · simp [Mem.set, hji]

/-- `Ok` of any result, where the payload has a value: guards can be forgotten after any writes of values, and the result still is `Ok` of what was
written, exactly if `is_ok` reads no byte of the payload, or answers as it does because the payload is none of its forbidden values. -/
theorem C96_ok_iff (ok err : Ty) (h : (Ty.result ok err).WF) (v : Val) (hv : HasTy ok v) :
    (∀ old new m src, Rep (.result ok err) (.ok old) m → Rep ok new src → Rep (.result ok err) (.ok new) (okForget ok.lay err.lay m src)) ↔
      (Apart (provider ok.lay err.lay).det (okOffset ok.lay err.lay) ok.lay.size ∨
        ∀ m : Mem, ¬ ok.lay.fv.Forbids (okPtr ok.lay err.lay m) → isOk ok.lay err.lay m = true) := by
  constructor
  · intro ha
    rcases (result_flip h).1 with hf | hf
    · refine .inl fun o ho => Classical.byContradiction fun hc => ?_
      have hr : Rep (.result ok err) (.ok v) _ := mkOk_rep h (encode_rep h.1 hv)
      obtain ⟨src, h1, h2⟩ := flip_bad h.1 hr.2 o (o - okOffset ok.lay err.lay) (by omega) (by omega)
        (hf o ho (o - okOffset ok.lay err.lay) (by omega) (by omega) _ hr.1)
      have := (ha v v _ src hr h1).1
      unfold isOk okForget at this
      rw [h2] at this
      cases this
    · exact .inr hf
  · rintro hq old new m src hm hw
    have hp : Rep ok new (okPtr ok.lay err.lay (okForget ok.lay err.lay m src)) := rep_congr h.1 hw (write_same m src _ _ _)
    refine ⟨?_, hp⟩
    rcases hq with hq | hq
    · rw [← hm.1]; exact isOk_reads _ _ _ fun o ho => write_out (hq o ho)
    · exact hq _ (rep_not_forbidden h.1 hp)

/-- The same for `Err`. -/
theorem C96_err_iff (ok err : Ty) (h : (Ty.result ok err).WF) (v : Val) (hv : HasTy err v) :
    (∀ old new m src, Rep (.result ok err) (.err old) m → Rep err new src → Rep (.result ok err) (.err new) (errForget ok.lay err.lay m src)) ↔
      (Apart (provider ok.lay err.lay).det (errOffset ok.lay err.lay) err.lay.size ∨
        ∀ m : Mem, ¬ err.lay.fv.Forbids (errPtr ok.lay err.lay m) → isOk ok.lay err.lay m = false) := by
  constructor
  · intro ha
    rcases (result_flip h).2 with hf | hf
    · refine .inl fun o ho => Classical.byContradiction fun hc => ?_
      have hr : Rep (.result ok err) (.err v) _ := mkErr_rep h (encode_rep h.2.1 hv)
      obtain ⟨src, h1, h2⟩ := flip_bad h.2.1 hr.2 o (o - errOffset ok.lay err.lay) (by omega) (by omega)
        (hf o ho (o - errOffset ok.lay err.lay) (by omega) (by omega) _ hr.1)
      have := (ha v v _ src hr h1).1
      unfold isOk errForget at this
      rw [h2] at this
      cases this
    · exact .inr hf
  · rintro hq old new m src hm hw
    have hp : Rep err new (errPtr ok.lay err.lay (errForget ok.lay err.lay m src)) := rep_congr h.2.1 hw (write_same m src _ _ _)
    refine ⟨?_, hp⟩
    rcases hq with hq | hq
    · rw [← hm.1]; exact isOk_reads _ _ _ fun o ho => write_out (hq o ho)
    · exact hq _ (rep_not_forbidden h.2.1 hp)

/-- `Result<bool, bool>` has a tag of its own, `Result<(), &T>` reads no byte of `()`; in `Result<(u8, u16), ()>` the tag is in the padding of the
tuple. -/
example : Apart (provider Ty.bool.lay Ty.bool.lay).det (okOffset Ty.bool.lay Ty.bool.lay) 1 ∧
    Apart (provider Ty.unit.lay Ty.ref.lay).det (okOffset Ty.unit.lay Ty.ref.lay) 0 ∧
    ¬ Apart (provider (Ty.tuple2 .u8 .u16).lay Ty.unit.lay).det (okOffset (Ty.tuple2 .u8 .u16).lay Ty.unit.lay) 4 := by
  refine ⟨?_, ?_, ?_⟩
  · unfold Apart; decide +kernel
  · intro o _; right; have : okOffset Ty.unit.lay Ty.ref.lay = 0 := by decide +kernel
    omega
  · unfold Apart; decide +kernel
example : (Ty.result (.tuple2 .u8 .u16) .unit).WF ∧ HasTy (.tuple2 .u8 .u16) (.pair (.raw [1]) (.raw [2, 0])) :=
  ⟨⟨⟨prim_wf ⟨0, rfl⟩, prim_wf ⟨1, rfl⟩⟩, prim_wf ⟨0, rfl⟩, by decide +kernel⟩, ⟨rfl, fun h => h⟩, rfl, fun h => h⟩

end Verif.Props.ForgetIff
