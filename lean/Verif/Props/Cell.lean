import Verif.Sum.Cell
import Verif.Sum.Encode

/-! C95: what is changed through shared references leaves the variants of sums as they are, and is not read by `is_ok`. -/
namespace Verif.Props.Cell
open Verif.Layout Verif.Sum

/-- The type lists byte `i` in its forbidden values, or a bit of it as unused. -/
def Marks (t : Lay) (i : Nat) : Prop := i ∈ t.fv.offsets ∨ ∃ b, b < 8 ∧ t.ub.Unused i b

/-- Every byte of a payload that `is_ok` reads is one of those, and all that it reads are among the first `size`. -/
def Reads (ok err : Lay) (okOff errOff : Nat) (d : Det) (size : Nat) : Prop :=
  ∀ o ∈ d.reads, o < size ∧ (∀ i, i < ok.size → o = okOff + i → Marks ok i) ∧ ∀ i, i < err.size → o = errOff + i → Marks err i

theorem into_reads (l : List (Nat × Byte)) : (intoValueIsErr l).reads = l.map Prod.fst := by
  induction l with
  | nil => rfl
  | cons e r ih => obtain ⟨o, v⟩ := e; simp [intoValueIsErr, Det.reads, ih]

theorem has_bit {v : Byte} (h : v ≠ 0) : ∃ b, b < 8 ∧ v.getLsbD b = true := by
  refine Classical.byContradiction fun hn => h (byte_ext fun i hi => ?_)
  cases hc : v.getLsbD i with
  | false => simp
  | true => exact absurd ⟨i, hi, hc⟩ hn

theorem Reads.swap {ok err : Lay} {okOff errOff : Nat} {d : Det} {size : Nat} (h : Reads ok err okOff errOff d size) :
    Reads err ok errOff okOff (.not d) size :=
  fun o ho => ⟨(h o ho).1, (h o ho).2.2, (h o ho).2.1⟩

theorem withUnit_reads {ok err : Lay} (g : ok.Good) (h0 : err.size = 0) {usz : Nat} (hsz : ok.size ≤ usz) : withUnit ok.fv.selectOne ok.ub = ⟨0, .bit, []⟩ ∨
    Reads ok err 0 (withUnit ok.fv.selectOne ok.ub).errShift (withUnit ok.fv.selectOne ok.ub).det usz := by
  cases hf : ok.fv.selectOne with
  | cons e tail =>
    obtain ⟨o, v⟩ := e
    have hp : Fv.Picks ok.fv ok.fv.selectOne := Fv.selectOne_picks g.fvWF (by rw [hf]; simp)
    rw [hf] at hp
    refine .inr fun o ho => ?_
    simp only [withUnit, into_reads, List.mem_map] at ho
    obtain ⟨⟨o, v⟩, ho, rfl⟩ := ho
    refine ⟨by have := g.fvRange o (hp.sub o v ho); simp only; omega, fun i _ e => .inl ?_, fun i hi => by omega⟩
    rw [Nat.zero_add] at e
    exact e ▸ hp.sub o v ho
  | nil =>
    cases hu : ok.ub with
    | nil => exact .inl rfl
    | cons e tail =>
      obtain ⟨o, v⟩ := e
      refine .inr fun p hp => ?_
      simp only [withUnit, Det.reads, List.mem_singleton] at hp
      subst hp
      refine ⟨by have := g.ub.range p v (by rw [hu]; simp); omega, fun i _ e => .inr ?_, fun i hi => by omega⟩
      rw [Nat.zero_add] at e
      obtain ⟨b, hb, hv⟩ := has_bit (g.ub.top p v (by rw [hu]; simp)).1
      exact ⟨b, hb, v, by rw [hu, e]; simp, hv⟩

theorem search_reads {ok err : Lay} {usz : Nat} {okUb : Mask} (gok : ok.Good) (gerr : err.Good) (mok : MemberMask okUb 0 usz ok)
    (hsz : ok.size ≤ usz) (budget off : Nat) (hoff : err.size + off ≤ usz) :
    search usz ok.fv okUb err.fv err.ub err.size err.align budget off = ⟨0, .bit, []⟩ ∨
      Reads ok err 0 (search usz ok.fv okUb err.fv err.ub err.size err.align budget off).errShift
        (search usz ok.fv okUb err.fv err.ub err.size err.align budget off).det usz := by
  induction budget generalizing off with
  | zero => exact .inl rfl
  | succ n ih =>
    have merr := errUb_member gerr hoff
    unfold search
    dsimp only
    cases h1 : ((err.fv.shift off).selectFrom okUb).resolve with
    | cons e tail =>
      obtain ⟨o, v⟩ := e
      have hp := Fv.selectFrom_picks (k := okUb) (Fv.wf_shift (k := off) gerr.fvWF) (by rw [h1]; simp)
      rw [h1] at hp
      obtain ⟨hp, hfree⟩ := hp
      refine .inr fun p hp' => ?_
      dsimp only at hp' ⊢
      simp only [Det.reads, into_reads, List.mem_map] at hp'
      obtain ⟨⟨p, w⟩, hp', rfl⟩ := hp'
      refine ⟨?_, fun i hi e => .inr ⟨0, by decide, mok.unused hi ?_⟩, fun i _ e => .inl ?_⟩
      · have := hp.sub p w hp'
        rw [Fv.offsets_shift, List.mem_map] at this
        obtain ⟨q, hq, hq'⟩ := this
        have := gerr.fvRange q hq
        simp only at hq' ⊢; omega
      · rw [← e]; exact Mask.unused_of_free (hfree _ _ hp') (by decide)
      · have := hp.sub p w hp'
        rw [Fv.offsets_shift, List.mem_map] at this
        obtain ⟨q, hq, hq'⟩ := this
        have : q = i := by simp only at e hq'; omega
        exact this ▸ hq
    | nil =>
      cases h2 : (ok.fv.selectFrom (errUnusedBits usz err.ub err.size off)).resolve with
      | cons e tail =>
        obtain ⟨o, v⟩ := e
        have hp := Fv.selectFrom_picks (k := errUnusedBits usz err.ub err.size off) gok.fvWF (by rw [h2]; simp)
        rw [h2] at hp
        obtain ⟨hp, hfree⟩ := hp
        refine .inr fun p hp' => ?_
        dsimp only at hp' ⊢
        simp only [into_reads, List.mem_map] at hp'
        obtain ⟨⟨p, w⟩, hp', rfl⟩ := hp'
        refine ⟨by have := gok.fvRange p (hp.sub p w hp'); simp only; omega, fun i _ e => .inl ?_, fun i hi e => .inr ⟨0, by decide, merr.unused hi ?_⟩⟩
        · rw [Nat.zero_add] at e
          exact e ▸ hp.sub p w hp'
        · rw [← e]; exact Mask.unused_of_free (hfree _ _ hp') (by decide)
      | nil =>
        cases h3 : okUb.bitAnd (errUnusedBits usz err.ub err.size off) with
        | cons e tail =>
          obtain ⟨o, v⟩ := e
          refine .inr fun p hp => ?_
          dsimp only at hp ⊢
          simp only [Det.reads, List.mem_singleton] at hp
          subst hp
          have hm : (p, v) ∈ okUb.bitAnd (errUnusedBits usz err.ub err.size off) := by rw [h3]; simp
          obtain ⟨b, hb, hv⟩ := has_bit ((mok.good.bitAnd merr.good).top p v hm).1
          have hu := Mask.unused_bitAnd (show Mask.Unused _ p b from ⟨v, hm, hv⟩)
          exact ⟨((mok.good.bitAnd merr.good).range p v hm).2, fun i hi e => .inr ⟨b, hb, mok.unused hi (e ▸ hu.1)⟩, fun i hi e => .inr ⟨b, hb, merr.unused hi (e ▸ hu.2)⟩⟩
        | nil =>
          simp only
          split
          · exact ih _ (by omega)
          · exact .inl rfl

theorem inner_reads {ok err : Lay} (gok : ok.Good) (gerr : err.Good) (h : err.size ≤ ok.size) :
    inner ok err = ⟨0, .bit, []⟩ ∨ Reads ok err 0 (inner ok err).errShift (inner ok err).det (unionSize ok err 0 0) := by
  have hu : ok.size ≤ unionSize ok err 0 0 := by
    have := le_nextMul (max (ok.size + 0) (err.size + 0)) (max ok.align err.align)
    unfold unionSize; omega
  unfold inner
  split
  · exact withUnit_reads gok ‹_› hu
  · exact search_reads gok gerr (okUb_member gok hu) hu 8 0 (by omega)

/-- Of the bytes of a payload, `is_ok` reads only those that its type lists as forbidden or unused. -/
theorem C95_reads {a b : Ty} (h : (Ty.result a b).WF) :
    Reads a.lay b.lay (okOffset a.lay b.lay) (errOffset a.lay b.lay) (provider a.lay b.lay).det (Ty.result a b).lay.size := by
  obtain ⟨ha, hb, hs⟩ := h
  have ga := ty_good ha
  have gb := ty_good hb
  have hpos : 0 < resAlign a.lay b.lay := (ga.align.max gb.align).pos
  have hsz : (Ty.result a b).lay.size = detSize a.lay b.lay + max a.lay.size b.lay.size := rfl
  cases res_ok ga gb with
  | bit det det1 okOff errOff ub =>
    rw [okOff, errOff]
    intro o ho
    have : o = 0 := by rcases det with h | h <;> simpa [h, Det.reads] using ho
    exact ⟨by omega, fun i _ e => by omega, fun i _ e => by omega⟩
  | niche det0 self trick ub sound alOk alErr =>
    have h1 : okOffset a.lay b.lay = (provider a.lay b.lay).okShift := by unfold okOffset; omega
    have h2 : errOffset a.lay b.lay = (provider a.lay b.lay).errShift := by unfold errOffset; omega
    rw [h1, h2, hsz, det0, Nat.zero_add, ← unionSize_eq hs]
    unfold provider at trick ⊢
    split at trick
    · rename_i h
      rw [if_pos h]
      rcases inner_reads ga gb h with e | e
      · rw [e] at trick; cases trick
      · exact e
    · rename_i h
      rw [if_neg h, unionSize_comm]
      rcases inner_reads gb ga (by omega) with e | e
      · rw [e] at trick; cases trick
      · exact e.swap
example : (Ty.result (Ty.tuple2 Ty.u8 Ty.u16) Ty.unit).WF ∧ (provider (Ty.tuple2 Ty.u8 Ty.u16).lay Ty.unit.lay).det.reads = [1] := by
  refine ⟨⟨⟨⟨⟨0, rfl⟩, trivial, by simp [Fv.offsets]⟩, ⟨⟨1, rfl⟩, trivial, by simp [Fv.offsets]⟩⟩, ⟨⟨0, rfl⟩, trivial, by simp [Fv.offsets]⟩,
    by decide⟩, by decide +kernel⟩

/-! ### What each kind of niche depends on -/

/-- What tells that the payload at `off` is there, which is the case when `is_ok` answers `here`: either only bits that this payload does not use, and
bytes outside of it, or that it is not one of its forbidden values. -/
def Tell (t : Lay) (off : Nat) (d : Det) (here : Bool) : Prop :=
  (∀ o ∈ d.reads, ∀ i, i < t.size → o = off + i → ∃ b, b < 8 ∧ t.ub.Unused i b) ∨
    ∀ m : Mem, ¬ t.fv.Forbids (m.at off) → d.isOk m = here

theorem Tell.not {t : Lay} {off : Nat} {d : Det} {here : Bool} (h : Tell t off d here) : Tell t off (.not d) (!here) := by
  rcases h with h | h
  · exact .inl h
  · exact .inr fun m hm => by rw [Det.isOk, h m hm]

theorem into_tell {t : Lay} {off : Nat} {l : List (Nat × Byte)} (hp : Fv.Picks (t.fv.shift off) l) : Tell t off (intoValueIsErr l) true :=
  .inr fun m hm => by
    cases hc : (intoValueIsErr l).isOk m with
    | true => rfl
    | false =>
      rw [into_isOk] at hc
      exact absurd (Fv.forbids_shift.1 (hp.forbidden m hc)) hm

theorem withUnit_tell {ok err : Lay} (g : ok.Good) (h0 : err.size = 0) : withUnit ok.fv.selectOne ok.ub = ⟨0, .bit, []⟩ ∨
    Tell ok 0 (withUnit ok.fv.selectOne ok.ub).det true ∧
      Tell err (withUnit ok.fv.selectOne ok.ub).errShift (withUnit ok.fv.selectOne ok.ub).det false := by
  have he : ∀ off d, Tell err off d false := fun off d => .inl fun o _ i hi => by omega
  cases hf : ok.fv.selectOne with
  | cons e tail =>
    obtain ⟨o, v⟩ := e
    have hp : Fv.Picks ok.fv ok.fv.selectOne := Fv.selectOne_picks g.fvWF (by rw [hf]; simp)
    rw [hf] at hp
    exact .inr ⟨into_tell (by rw [Fv.shift_zero]; exact hp), he _ _⟩
  | nil =>
    cases hu : ok.ub with
    | nil => exact .inl rfl
    | cons e tail =>
      obtain ⟨o, v⟩ := e
      refine .inr ⟨.inl fun p hp i _ e => ?_, he _ _⟩
      simp only [withUnit, Det.reads, List.mem_singleton] at hp
      subst hp
      rw [Nat.zero_add] at e
      obtain ⟨b, hb, hv⟩ := has_bit (g.ub.top p v (by rw [hu]; simp)).1
      exact ⟨b, hb, v, by rw [hu, e]; simp, hv⟩

theorem search_tell {ok err : Lay} {usz : Nat} {okUb : Mask} (gok : ok.Good) (gerr : err.Good) (mok : MemberMask okUb 0 usz ok)
    (budget off : Nat) (hoff : err.size + off ≤ usz) :
    search usz ok.fv okUb err.fv err.ub err.size err.align budget off = ⟨0, .bit, []⟩ ∨
      Tell ok 0 (search usz ok.fv okUb err.fv err.ub err.size err.align budget off).det true ∧
      Tell err (search usz ok.fv okUb err.fv err.ub err.size err.align budget off).errShift
        (search usz ok.fv okUb err.fv err.ub err.size err.align budget off).det false := by
  induction budget generalizing off with
  | zero => exact .inl rfl
  | succ n ih =>
    have merr := errUb_member gerr hoff
    unfold search
    dsimp only
    cases h1 : ((err.fv.shift off).selectFrom okUb).resolve with
    | cons e tail =>
      obtain ⟨o, v⟩ := e
      have hp := Fv.selectFrom_picks (k := okUb) (Fv.wf_shift (k := off) gerr.fvWF) (by rw [h1]; simp)
      rw [h1] at hp
      obtain ⟨hp, hfree⟩ := hp
      refine .inr ⟨.inl fun p hp' i hi e => ?_, (into_tell hp).not⟩
      dsimp only at hp'
      simp only [Det.reads, into_reads, List.mem_map] at hp'
      obtain ⟨⟨p, w⟩, hp', rfl⟩ := hp'
      refine ⟨0, by decide, mok.unused hi ?_⟩
      rw [← e]; exact Mask.unused_of_free (hfree _ _ hp') (by decide)
    | nil =>
      cases h2 : (ok.fv.selectFrom (errUnusedBits usz err.ub err.size off)).resolve with
      | cons e tail =>
        obtain ⟨o, v⟩ := e
        have hp := Fv.selectFrom_picks (k := errUnusedBits usz err.ub err.size off) gok.fvWF (by rw [h2]; simp)
        rw [h2] at hp
        obtain ⟨hp, hfree⟩ := hp
        refine .inr ⟨into_tell (by rw [Fv.shift_zero]; exact hp), .inl fun p hp' i hi e => ?_⟩
        dsimp only at hp'
        simp only [into_reads, List.mem_map] at hp'
        obtain ⟨⟨p, w⟩, hp', rfl⟩ := hp'
        refine ⟨0, by decide, merr.unused hi ?_⟩
        rw [← e]; exact Mask.unused_of_free (hfree _ _ hp') (by decide)
      | nil =>
        cases h3 : okUb.bitAnd (errUnusedBits usz err.ub err.size off) with
        | cons e tail =>
          obtain ⟨o, v⟩ := e
          have hm : (o, v) ∈ okUb.bitAnd (errUnusedBits usz err.ub err.size off) := by rw [h3]; simp
          obtain ⟨b, hb, hv⟩ := has_bit ((mok.good.bitAnd merr.good).top o v hm).1
          have hu := Mask.unused_bitAnd (show Mask.Unused _ o b from ⟨v, hm, hv⟩)
          refine .inr ⟨.inl fun p hp i hi e => ?_, .inl fun p hp i hi e => ?_⟩
          · simp only [Det.reads, List.mem_singleton] at hp
            subst hp
            exact ⟨b, hb, mok.unused hi (e ▸ hu.1)⟩
          · simp only [Det.reads, List.mem_singleton] at hp
            subst hp
            exact ⟨b, hb, merr.unused hi (e ▸ hu.2)⟩
        | nil =>
          simp only
          split
          · exact ih _ (by omega)
          · exact .inl rfl

theorem inner_tell {ok err : Lay} (gok : ok.Good) (gerr : err.Good) (h : err.size ≤ ok.size) :
    inner ok err = ⟨0, .bit, []⟩ ∨ Tell ok 0 (inner ok err).det true ∧ Tell err (inner ok err).errShift (inner ok err).det false := by
  have hu : ok.size ≤ unionSize ok err 0 0 := by
    have := le_nextMul (max (ok.size + 0) (err.size + 0)) (max ok.align err.align)
    unfold unionSize; omega
  unfold inner
  split
  · exact withUnit_tell gok ‹_›
  · exact search_tell gok gerr (okUb_member gok hu) 8 0 (by omega)

theorem result_tell {a b : Ty} (h : (Ty.result a b).WF) :
    Tell a.lay (okOffset a.lay b.lay) (provider a.lay b.lay).det true ∧ Tell b.lay (errOffset a.lay b.lay) (provider a.lay b.lay).det false := by
  obtain ⟨ha, hb, hs⟩ := h
  have ga := ty_good ha
  have gb := ty_good hb
  have hpos : 0 < resAlign a.lay b.lay := (ga.align.max gb.align).pos
  cases res_ok ga gb with
  | bit det det1 okOff errOff ub =>
    rw [okOff, errOff]
    have h0 : ∀ o ∈ (provider a.lay b.lay).det.reads, o = 0 := fun o ho => by rcases det with h | h <;> simpa [h, Det.reads] using ho
    exact ⟨.inl fun o ho i _ e => by have := h0 o ho; omega, .inl fun o ho i _ e => by have := h0 o ho; omega⟩
  | niche det0 self trick ub sound alOk alErr =>
    have h1 : okOffset a.lay b.lay = (provider a.lay b.lay).okShift := by unfold okOffset; omega
    have h2 : errOffset a.lay b.lay = (provider a.lay b.lay).errShift := by unfold errOffset; omega
    rw [h1, h2]
    unfold provider at trick ⊢
    split at trick
    · rename_i h
      rw [if_pos h]
      rcases inner_tell ga gb h with e | e
      · rw [e] at trick; cases trick
      · exact e
    · rename_i h
      rw [if_neg h]
      rcases inner_tell gb ga (by omega) with e | e
      · rw [e] at trick; cases trick
      · exact ⟨e.2.not, e.1.not⟩

/-! ### Cells without niches -/

/-- None of the cells has a type with forbidden values or unused bits. -/
def Quiet : CTy → Prop
  | .plain _ => True
  | .cell t => t.lay.fv = .none ∧ t.lay.ub = []
  | .fieldPair a b => Quiet a ∧ Quiet b
  | .struct t => Quiet t
  | .alignedStruct t _ => Quiet t
  | .array t _ => Quiet t
  | .result a b => Quiet a ∧ Quiet b

/-- None of the cells has a type with unused bits. -/
def Full : CTy → Prop
  | .plain _ => True
  | .cell t => t.lay.ub = []
  | .fieldPair a b => Full a ∧ Full b
  | .struct t => Full t
  | .alignedStruct t _ => Full t
  | .array t _ => Full t
  | .result a b => Full a ∧ Full b

theorem Quiet.full : ∀ {t : CTy}, Quiet t → Full t
  | .plain _, _ => trivial
  | .cell _, h => h.2
  | .fieldPair _ _, h => ⟨Quiet.full h.1, Quiet.full h.2⟩
  | .struct t, h => Quiet.full (t := t) h
  | .alignedStruct t _, h => Quiet.full (t := t) h
  | .array t _, h => Quiet.full (t := t) h
  | .result _ _, h => ⟨Quiet.full h.1, Quiet.full h.2⟩

/-- Two values differ only in what cells hold: in particular sums have the same variant. -/
def AlikeArray (A : Val → Val → Prop) : Nat → Val → Val → Prop
  | 0, _, _ => True
  | n + 1, .pair v vs, .pair w ws => A v w ∧ AlikeArray A n vs ws
  | _ + 1, _, _ => False
def Alike : CTy → Val → Val → Prop
  | .plain _, v, w => v = w
  | .cell _, _, _ => True
  | .fieldPair a b, .pair v1 v2, .pair w1 w2 => Alike a v1 w1 ∧ Alike b v2 w2
  | .struct t, v, w => Alike t v w
  | .alignedStruct t _, v, w => Alike t v w
  | .array t n, v, w => AlikeArray (Alike t) n v w
  | .result a _, .ok v, .ok w => Alike a v w
  | .result _ b, .err v, .err w => Alike b v w
  | _, _, _ => False

theorem cellsArray_lt {C : Mem → Nat → Prop} {size : Nat} (h : ∀ m i, C m i → i < size) : ∀ n m i, CellsArray C size n m i → i < size * n
  | 0, _, _, hc => hc.elim
  | n + 1, m, i, hc => by
    rw [Nat.mul_succ]
    rcases hc with hc | ⟨j, rfl, hc⟩
    · have := h m i hc; omega
    · have := cellsArray_lt h n _ j hc; omega

theorem cells_lt : ∀ {t : CTy}, t.ty.WF → ∀ {m i}, Cells t m i → i < t.ty.lay.size
  | .plain _, _, _, _, hc => hc.elim
  | .cell _, _, _, _, hc => hc
  | .fieldPair a b, h, m, i, hc => by
    have gb := ty_good h.2
    have hle := le_nextMul a.ty.lay.size b.ty.lay.align
    have he := nextMul_eq (n := a.ty.lay.size) gb.align.pos
    simp only [CTy.ty, Ty.lay, Lay.fieldPair, Lay.alignedAfter]
    rcases hc with hc | ⟨j, rfl, hc⟩
    · have := cells_lt h.1 hc; omega
    · have := cells_lt h.2 hc; omega
  | .struct t, h, m, i, hc => by
    have := cells_lt (t := t) h hc
    have h2 := le_nextMul t.ty.lay.size t.ty.lay.align
    simp only [CTy.ty, Ty.lay, Lay.struct]; omega
  | .alignedStruct t al, h, m, i, hc => by
    have := cells_lt (t := t) h.1 hc
    have h2 := le_nextMul t.ty.lay.size (max al t.ty.lay.align)
    simp only [CTy.ty, Ty.lay, Lay.alignedStruct]; omega
  | .array t n, h, m, i, hc => cellsArray_lt (fun m i hc => cells_lt (t := t) h hc) n m i hc
  | .result a b, h, m, i, hc => by
    have s := result_sound (ty_good h.1) (ty_good h.2.1) h.2.2
    simp only [Cells] at hc
    simp only [CTy.ty, Ty.lay]
    split at hc
    · obtain ⟨j, rfl, hc⟩ := hc
      have := cells_lt (t := a) h.1 hc
      have := s.okFits; omega
    · obtain ⟨j, rfl, hc⟩ := hc
      have := cells_lt (t := b) h.2.1 hc
      have := s.errFits; omega

theorem unmarked_tail {t : Lay} {i n size al : Nat} {one : Sat} (h : ¬ Marks t i) (hi : i < t.size) :
    ¬ Marks ⟨size, al, t.fv, t.ub.bitOr ((padMask n).shift t.size), one, t.indirections⟩ i := by
  rintro (hm | ⟨b, hb, w, hw, hwb⟩)
  · exact h (.inl hm)
  · rw [Mask.bitOr_eq, List.mem_append] at hw
    rcases hw with hw | hw
    · exact h (.inr ⟨b, hb, w, hw, hwb⟩)
    · obtain ⟨j, hj, _⟩ := Mask.mem_shift.1 hw; omega

/-- What is in a cell without niches is not listed by the types around it either. -/
theorem cells_unmarked : ∀ {t : CTy}, t.ty.WF → Quiet t → ∀ {m i}, Cells t m i → ¬ Marks t.ty.lay i
  | .plain _, _, _, _, _, hc => hc.elim
  | .cell t, _, hq, _, i, _ => by
    rintro (hm | ⟨b, hb, w, hw, _⟩)
    · rw [CTy.ty, hq.1] at hm; simp [Fv.offsets] at hm
    · rw [CTy.ty, hq.2] at hw; simp at hw
  | .fieldPair a b, h, hq, m, i, hc => by
    have ga := ty_good h.1
    have gb := ty_good h.2
    have hle := le_nextMul a.ty.lay.size b.ty.lay.align
    have he := nextMul_eq (n := a.ty.lay.size) gb.align.pos
    simp only [Cells] at hc
    rw [← he] at hc
    rintro (hm | ⟨n, hn, w, hw, hwb⟩)
    · simp only [CTy.ty, Ty.lay, Lay.fieldPair, Lay.alignedAfter, Fv.offsets, Fv.offsets_shift, List.mem_append, List.mem_map] at hm
      rcases hc with hc | ⟨j, rfl, hc⟩
      · have hi := cells_lt h.1 hc
        rcases hm with hm | ⟨x, hx, e⟩
        · exact cells_unmarked h.1 hq.1 hc (.inl hm)
        · omega
      · rcases hm with hm | ⟨x, hx, e⟩
        · have := ga.fvRange _ hm; omega
        · have : x = j := by omega
          exact cells_unmarked h.2 hq.2 hc (.inl (this ▸ hx))
    · simp only [CTy.ty, Ty.lay, Lay.fieldPair, Lay.alignedAfter, Mask.bitOr_eq, List.mem_append] at hw
      rcases hc with hc | ⟨j, rfl, hc⟩
      · have hi := cells_lt h.1 hc
        rcases hw with hw | hw | hw
        · exact cells_unmarked h.1 hq.1 hc (.inr ⟨n, hn, w, hw, hwb⟩)
        · obtain ⟨j, hj, _⟩ := Mask.mem_shift.1 hw; omega
        · obtain ⟨j, hj, _⟩ := Mask.mem_shift.1 hw; omega
      · rcases hw with hw | hw | hw
        · have := (ga.ub.range _ _ hw).2; omega
        · obtain ⟨k, hk, hw⟩ := Mask.mem_shift.1 hw
          have := (Mask.mem_padMask.1 hw).1; omega
        · obtain ⟨k, hk, hw⟩ := Mask.mem_shift.1 hw
          have : j = k := by omega
          subst this
          exact cells_unmarked h.2 hq.2 hc (.inr ⟨n, hn, w, hw, hwb⟩)
  | .struct t, h, hq, m, i, hc => unmarked_tail (cells_unmarked (t := t) h hq hc) (cells_lt (t := t) h hc)
  | .alignedStruct t al, h, hq, m, i, hc => unmarked_tail (cells_unmarked (t := t) h.1 hq hc) (cells_lt (t := t) h.1 hc)
  | .array t n, h, hq, m, i, hc => by
    by_cases hn : n = 1
    · subst hn
      rcases hc with hc | ⟨j, _, hc⟩
      · have := cells_unmarked (t := t) h hq hc
        simpa [Marks, CTy.ty, Ty.lay, Lay.array] using this
      · exact hc.elim
    · simp [Marks, CTy.ty, Ty.lay, Lay.array, hn, Fv.offsets, Mask.Unused]
  | .result a b, h, hq, m, i, hc => by
    have s := result_sound (ty_good h.1) (ty_good h.2.1) h.2.2
    simp only [Cells] at hc
    rintro (hm | ⟨n, hn, hu⟩)
    · simp [CTy.ty, Ty.lay, resultLay, Fv.offsets] at hm
    · split at hc
      · obtain ⟨j, rfl, hc⟩ := hc
        exact cells_unmarked (t := a) h.1 hq.1 hc (.inr ⟨n, hn, s.expOk j n (cells_lt (t := a) h.1 hc) hn hu⟩)
      · obtain ⟨j, rfl, hc⟩ := hc
        exact cells_unmarked (t := b) h.2.1 hq.2 hc (.inr ⟨n, hn, s.expErr j n (cells_lt (t := b) h.2.1 hc) hn hu⟩)

/-- If the cells have no niches, `is_ok` reads none of the bytes that others may write at the same time. -/
theorem C95_no_race_partial (a b : CTy) (h : (CTy.result a b).ty.WF) (hq : Quiet (.result a b)) (m : Mem) (i : Nat)
    (hc : Cells (.result a b) m i) : i ∉ (provider a.ty.lay b.ty.lay).det.reads := by
  intro hr
  have := (C95_reads (a := a.ty) (b := b.ty) h i hr).2
  simp only [Cells] at hc
  split at hc
  · obtain ⟨j, rfl, hc⟩ := hc
    exact cells_unmarked h.1 hq.1 hc (this.1 j (cells_lt h.1 hc) rfl)
  · obtain ⟨j, rfl, hc⟩ := hc
    exact cells_unmarked h.2.1 hq.2 hc (this.2 j (cells_lt h.2.1 hc) rfl)

theorem used_tail {t : Mask} {i n k : Nat} (h : ∀ b, b < 8 → ¬ t.Unused i b) (hi : i < k) :
    ∀ b, b < 8 → ¬ (t.bitOr ((padMask n).shift k)).Unused i b := by
  rintro b hb ⟨w, hw, hwb⟩
  rw [Mask.bitOr_eq, List.mem_append] at hw
  rcases hw with hw | hw
  · exact h b hb ⟨w, hw, hwb⟩
  · obtain ⟨j, hj, _⟩ := Mask.mem_shift.1 hw; omega

/-- What is in a cell without unused bits is not unused for the types around it either. -/
theorem cells_used : ∀ {t : CTy}, t.ty.WF → Full t → ∀ {m i}, Cells t m i → ∀ b, b < 8 → ¬ t.ty.lay.ub.Unused i b
  | .plain _, _, _, _, _, hc => hc.elim
  | .cell t, _, hq, _, i, _ => by
    rintro b hb ⟨w, hw, _⟩
    rw [CTy.ty, show t.lay.ub = [] from hq] at hw; simp at hw
  | .fieldPair a b, h, hq, m, i, hc => by
    have ga := ty_good h.1
    have gb := ty_good h.2
    have hle := le_nextMul a.ty.lay.size b.ty.lay.align
    have he := nextMul_eq (n := a.ty.lay.size) gb.align.pos
    simp only [Cells] at hc
    rw [← he] at hc
    rintro n hn ⟨w, hw, hwb⟩
    simp only [CTy.ty, Ty.lay, Lay.fieldPair, Lay.alignedAfter, Mask.bitOr_eq, List.mem_append] at hw
    rcases hc with hc | ⟨j, rfl, hc⟩
    · have hi := cells_lt h.1 hc
      rcases hw with hw | hw | hw
      · exact cells_used h.1 hq.1 hc n hn ⟨w, hw, hwb⟩
      · obtain ⟨j, hj, _⟩ := Mask.mem_shift.1 hw; omega
      · obtain ⟨j, hj, _⟩ := Mask.mem_shift.1 hw; omega
    · rcases hw with hw | hw | hw
      · have := (ga.ub.range _ _ hw).2; omega
      · obtain ⟨k, hk, hw⟩ := Mask.mem_shift.1 hw
        have := (Mask.mem_padMask.1 hw).1; omega
      · obtain ⟨k, hk, hw⟩ := Mask.mem_shift.1 hw
        have : j = k := by omega
        subst this
        exact cells_used h.2 hq.2 hc n hn ⟨w, hw, hwb⟩
  | .struct t, h, hq, m, i, hc => used_tail (cells_used (t := t) h hq hc) (cells_lt (t := t) h hc)
  | .alignedStruct t al, h, hq, m, i, hc => used_tail (cells_used (t := t) h.1 hq hc) (cells_lt (t := t) h.1 hc)
  | .array t n, h, hq, m, i, hc => by
    by_cases hn : n = 1
    · subst hn
      rcases hc with hc | ⟨j, _, hc⟩
      · have := cells_used (t := t) h hq hc
        simpa [CTy.ty, Ty.lay, Lay.array] using this
      · exact hc.elim
    · simp [CTy.ty, Ty.lay, Lay.array, hn, Mask.Unused]
  | .result a b, h, hq, m, i, hc => by
    have s := result_sound (ty_good h.1) (ty_good h.2.1) h.2.2
    simp only [Cells] at hc
    intro n hn hu
    split at hc
    · obtain ⟨j, rfl, hc⟩ := hc
      exact cells_used (t := a) h.1 hq.1 hc n hn (s.expOk j n (cells_lt (t := a) h.1 hc) hn hu)
    · obtain ⟨j, rfl, hc⟩ := hc
      exact cells_used (t := b) h.2.1 hq.2 hc n hn (s.expErr j n (cells_lt (t := b) h.2.1 hc) hn hu)

theorem isOk_reads : ∀ (d : Det) (m m' : Mem), (∀ o ∈ d.reads, m' o = m o) → d.isOk m' = d.isOk m
  | .bit, m, m', h => by simp [Det.isOk, h 0 (by simp [Det.reads])]
  | .endd, _, _, _ => rfl
  | .valueIsErr o v tail, m, m', h => by
    rw [Det.isOk, Det.isOk, h o (by simp [Det.reads]), isOk_reads tail m m' fun p hp => h p (by simp [Det.reads, hp])]
  | .bitIsErr o k, m, m', h => by rw [Det.isOk, Det.isOk, h o (by simp [Det.reads])]
  | .not d, m, m', h => by rw [Det.isOk, Det.isOk, isOk_reads d m m' h]

theorem keeps_array {C : Mem → Nat → Prop} {H : Mem → Mem → Prop} {A : Val → Val → Prop} {P : Val → Mem → Prop} {size : Nat}
    (hlt : ∀ m i, C m i → i < size)
    (hS : ∀ v m m', P v m → (∀ i, i < size → ¬ C m i → m' i = m i) → H m m' → ∃ v', P v' m' ∧ A v v') :
    ∀ n v m m', RepArray P size n v m → (∀ i, i < size * n → ¬ CellsArray C size n m i → m' i = m i) → HoldArray H size n m m' →
      ∃ v', RepArray P size n v' m' ∧ AlikeArray A n v v' := by
  intro n
  induction n with
  | zero => intro v m m' h _ _; exact ⟨.nil, rfl, trivial⟩
  | succ n ih =>
    intro v m m' h hm hh
    cases v with
    | pair x y =>
      obtain ⟨x', hx, ax⟩ := hS x m m' h.1 (fun i hi hc => hm i (by rw [Nat.mul_succ]; omega) (by
        rintro (hc' | ⟨j, rfl, _⟩)
        · exact hc hc'
        · omega)) hh.1
      obtain ⟨y', hy, ay⟩ := ih y _ _ h.2 (fun i hi hc => hm (size + i) (by rw [Nat.mul_succ]; omega) (by
        rintro (hc' | ⟨j, e, hc'⟩)
        · have := hlt _ _ hc'; omega
        · have : i = j := by omega
          exact hc (this ▸ hc'))) hh.2
      exact ⟨.pair x' y', ⟨hx, hy⟩, ax, ay⟩
    | _ => exact h.elim

/-- If the cells have no unused bits: whatever is written to them through shared references, the memory still holds a value of the type, in which every
`Result` and `Option` has the variant it had, and all that is not in a cell is as it was. -/
theorem C95_keeps_partial : ∀ (t : CTy), t.ty.WF → Full t → ∀ v m m', Rep t.ty v m → Step t m m' → ∃ v', Rep t.ty v' m' ∧ Alike t v v'
  | .plain t, h, _, v, m, m', hr, hs =>
    ⟨v, rep_congr h hr fun i hi b hb _ => by rw [hs.1 i hi (fun hc => hc)], rfl⟩
  | .cell t, _, _, v, m, m', hr, hs => hs.2.imp fun v' hv => ⟨hv, trivial⟩
  | .fieldPair a b, h, hq, v, m, m', hr, hs => by
    cases v with
    | pair x y =>
      have ga := ty_good h.1
      have gb := ty_good h.2
      have hle := le_nextMul a.ty.lay.size b.ty.lay.align
      have he := nextMul_eq (n := a.ty.lay.size) gb.align.pos
      have hsz : (CTy.fieldPair a b).ty.lay.size = b.ty.lay.size + nextMul a.ty.lay.size b.ty.lay.align := rfl
      obtain ⟨x', hx, ax⟩ := C95_keeps_partial a h.1 hq.1 x m m' hr.1 ⟨fun i hi hc => hs.1 i (by omega) (by
        rintro (hc' | ⟨j, e, _⟩)
        · exact hc hc'
        · omega), hs.2.1⟩
      obtain ⟨y', hy, ay⟩ := C95_keeps_partial b h.2 hq.2 y _ _ hr.2 ⟨fun i hi hc => hs.1 _ (by omega) (by
        rintro (hc' | ⟨j, e, hc'⟩)
        · have := cells_lt h.1 hc'; omega
        · have : i = j := by omega
          exact hc (this ▸ hc')), hs.2.2⟩
      exact ⟨.pair x' y', ⟨hx, hy⟩, ax, ay⟩
    | _ => exact hr.elim
  | .struct t, h, hq, v, m, m', hr, hs => by
    have hle := le_nextMul t.ty.lay.size t.ty.lay.align
    exact C95_keeps_partial t h hq v m m' hr ⟨fun i hi hc => hs.1 i (by simp only [CTy.ty, Ty.lay, Lay.struct]; omega) hc, hs.2⟩
  | .alignedStruct t al, h, hq, v, m, m', hr, hs => by
    have hle := le_nextMul t.ty.lay.size (max al t.ty.lay.align)
    exact C95_keeps_partial t h.1 hq v m m' hr ⟨fun i hi hc => hs.1 i (by simp only [CTy.ty, Ty.lay, Lay.alignedStruct]; omega) hc, hs.2⟩
  | .array t n, h, hq, v, m, m', hr, hs =>
    keeps_array (C := Cells t) (H := Hold t) (P := Rep t.ty) (fun m i hc => cells_lt (t := t) h hc)
      (fun v m m' hr h1 h2 => C95_keeps_partial t h hq v m m' hr ⟨h1, h2⟩) n v m m' hr hs.1 hs.2
  | .result a b, h, hq, v, m, m', hr, hs => by
    have s := result_sound (ty_good h.1) (ty_good h.2.1) h.2.2
    have hsz : (CTy.result a b).ty.lay.size = (resultLay a.ty.lay b.ty.lay).size := rfl
    have hin : ∀ o ∈ (provider a.ty.lay b.ty.lay).det.reads, o < (CTy.result a b).ty.lay.size :=
      fun o ho => (C95_reads (a := a.ty) (b := b.ty) h o ho).1
    have tell := result_tell (a := a.ty) (b := b.ty) h
    obtain ⟨h1, h2⟩ := hs
    cases v with
    | ok x =>
      have hm : isOk a.ty.lay b.ty.lay m = true := hr.1
      simp only [Hold, hm, if_true] at h2
      have h1' : ∀ i, i < (CTy.result a b).ty.lay.size → ¬ (∃ j, i = okOffset a.ty.lay b.ty.lay + j ∧ Cells a (okPtr a.ty.lay b.ty.lay m) j) →
          m' i = m i := fun i hi hc => h1 i hi (by rw [Cells, if_pos hm]; exact hc)
      obtain ⟨x', hx, ax⟩ := C95_keeps_partial a h.1 hq.1 x _ _ hr.2 ⟨fun i hi hc => h1' _ (by have := s.okFits; omega) (by
        rintro ⟨j, e, hc'⟩
        have : i = j := by omega
        exact hc (this ▸ hc')), h2⟩
      refine ⟨.ok x', ⟨?_, hx⟩, ax⟩
      rcases tell.1 with ht | ht
      · rw [← hm]
        refine isOk_reads _ _ _ fun o ho => h1' o (hin o ho) ?_
        rintro ⟨j, e, hc⟩
        obtain ⟨n, hn, hu⟩ := ht o ho j (cells_lt h.1 hc) e
        exact cells_used h.1 hq.1 hc n hn hu
      · exact ht m' (rep_not_forbidden h.1 hx)
    | err x =>
      have hm : isOk a.ty.lay b.ty.lay m = false := hr.1
      simp only [Hold, hm, Bool.false_eq_true, if_false] at h2
      have h1' : ∀ i, i < (CTy.result a b).ty.lay.size → ¬ (∃ j, i = errOffset a.ty.lay b.ty.lay + j ∧ Cells b (errPtr a.ty.lay b.ty.lay m) j) →
          m' i = m i := fun i hi hc => h1 i hi (by rw [Cells, if_neg (by simp [hm])]; exact hc)
      obtain ⟨x', hx, ax⟩ := C95_keeps_partial b h.2.1 hq.2 x _ _ hr.2 ⟨fun i hi hc => h1' _ (by have := s.errFits; omega) (by
        rintro ⟨j, e, hc'⟩
        have : i = j := by omega
        exact hc (this ▸ hc')), h2⟩
      refine ⟨.err x', ⟨?_, hx⟩, ax⟩
      rcases tell.2 with ht | ht
      · rw [← hm]
        refine isOk_reads _ _ _ fun o ho => h1' o (hin o ho) ?_
        rintro ⟨j, e, hc⟩
        obtain ⟨n, hn, hu⟩ := ht o ho j (cells_lt h.2.1 hc) e
        exact cells_used h.2.1 hq.2 hc n hn hu
      · exact ht m' (rep_not_forbidden h.2.1 hx)
    | _ => exact hr.elim

/-- Any number of programs taking turns. -/
inductive Steps (t : CTy) : Mem → Mem → Prop
  | refl (m) : Steps t m m
  | tail {m m' m''} : Steps t m m' → Step t m' m'' → Steps t m m''

theorem alikeArray_trans {A : Val → Val → Prop} (h : ∀ u v w, A u v → A v w → A u w) :
    ∀ n u v w, AlikeArray A n u v → AlikeArray A n v w → AlikeArray A n u w
  | 0, _, _, _, _, _ => trivial
  | n + 1, .pair u us, .pair v vs, .pair w ws, h1, h2 => ⟨h u v w h1.1 h2.1, alikeArray_trans h n us vs ws h1.2 h2.2⟩

theorem alike_trans : ∀ (t : CTy) (u v w : Val), Alike t u v → Alike t v w → Alike t u w
  | .plain _, _, _, _, h1, h2 => Eq.trans (show _ = _ from h1) h2
  | .cell _, _, _, _, _, _ => by simp [Alike]
  | .fieldPair a b, .pair _ _, .pair _ _, .pair _ _, h1, h2 => ⟨alike_trans a _ _ _ h1.1 h2.1, alike_trans b _ _ _ h1.2 h2.2⟩
  | .struct t, u, v, w, h1, h2 => alike_trans t u v w h1 h2
  | .alignedStruct t _, u, v, w, h1, h2 => alike_trans t u v w h1 h2
  | .array t n, u, v, w, h1, h2 => alikeArray_trans (alike_trans t) n u v w h1 h2
  | .result a _, .ok u, .ok v, .ok w, h1, h2 => alike_trans a u v w h1 h2
  | .result _ b, .err u, .err v, .err w, h1, h2 => alike_trans b u v w h1 h2

theorem alikeArray_refl {P : Val → Mem → Prop} {A : Val → Val → Prop} {size : Nat} (h : ∀ v m, P v m → A v v) :
    ∀ n v m, RepArray P size n v m → AlikeArray A n v v
  | 0, _, _, _ => trivial
  | n + 1, .pair v vs, m, hr => ⟨h v m hr.1, alikeArray_refl h n vs _ hr.2⟩

theorem alike_refl : ∀ (t : CTy) (v : Val) (m : Mem), Rep t.ty v m → Alike t v v
  | .plain _, _, _, _ => rfl
  | .cell _, _, _, _ => by simp [Alike]
  | .fieldPair a b, .pair _ _, _, h => ⟨alike_refl a _ _ h.1, alike_refl b _ _ h.2⟩
  | .struct t, v, m, h => alike_refl t v m h
  | .alignedStruct t _, v, m, h => alike_refl t v m h
  | .array t n, v, m, h => alikeArray_refl (alike_refl t) n v m h
  | .result a _, .ok v, _, h => alike_refl a v _ h.2
  | .result _ b, .err v, _, h => alike_refl b v _ h.2

/-- The same for any number of writes, by any number of holders of references. -/
theorem C95_run_partial (t : CTy) (h : t.ty.WF) (hq : Full t) (v : Val) (m m' : Mem) (hr : Rep t.ty v m) (hs : Steps t m m') :
    ∃ v', Rep t.ty v' m' ∧ Alike t v v' := by
  induction hs with
  | refl => exact ⟨v, hr, alike_refl t v m hr⟩
  | tail _ h2 ih =>
    obtain ⟨v1, hr1, ha1⟩ := ih
    obtain ⟨v2, hr2, ha2⟩ := C95_keeps_partial t h hq v1 _ _ hr1 h2
    exact ⟨v2, hr2, alike_trans t v v1 v2 ha1 ha2⟩

theorem prim_wf {s a : Nat} {one : Sat} {ind : Bool} (h : Pow2 a) : (Ty.prim s a .none one ind).WF := ⟨h, trivial, by simp [Fv.offsets]⟩

/-- `Option<(AtomicU16, bool)>`: the counter changes from 1 to 513, the rest stays. -/
example : (CTy.result (.struct (.fieldPair (.cell Ty.u16) (.plain Ty.bool))) (.plain Ty.unit)).ty.WF ∧
    Quiet (.result (.struct (.fieldPair (.cell Ty.u16) (.plain Ty.bool))) (.plain Ty.unit)) ∧
    Rep (CTy.result (.struct (.fieldPair (.cell Ty.u16) (.plain Ty.bool))) (.plain Ty.unit)).ty (.ok (.pair (.raw [1, 0]) (.raw [1])))
      (fun i => if i = 0 then 1 else if i = 2 then 1 else 0) ∧
    Step (.result (.struct (.fieldPair (.cell Ty.u16) (.plain Ty.bool))) (.plain Ty.unit)) (fun i => if i = 0 then 1 else if i = 2 then 1 else 0)
      (fun i => if i = 0 then 1 else if i = 1 then 2 else if i = 2 then 1 else 0) := by
  have hok : isOk (CTy.struct (.fieldPair (.cell Ty.u16) (.plain Ty.bool))).ty.lay (CTy.plain Ty.unit).ty.lay
      (fun i => if i = 0 then 1 else if i = 2 then 1 else 0) = true := by decide +kernel
  have hoff : okOffset (CTy.struct (.fieldPair (.cell Ty.u16) (.plain Ty.bool))).ty.lay (CTy.plain Ty.unit).ty.lay = 0 := by decide +kernel
  refine ⟨⟨⟨prim_wf ⟨1, rfl⟩, ⟨0, rfl⟩, show (2 : Byte) ≤ 255 by decide, by simp [Fv.offsets]⟩, prim_wf ⟨0, rfl⟩, by decide⟩, ⟨⟨⟨rfl, rfl⟩, trivial⟩, trivial⟩,
    ⟨hok, ⟨rfl, ?_, fun h => h⟩, ⟨rfl, ?_, ?_⟩⟩, fun i hi hc => ?_, ?_⟩
  · intro i hi
    have hi : i < 2 := hi
    unfold okPtr Mem.at
    rw [hoff]
    match i, hi with
    | 0, _ => rfl
    | 1, _ => rfl
  · intro i hi
    have hi : i < 1 := hi
    unfold okPtr Mem.at
    rw [hoff]
    match i, hi with
    | 0, _ => rfl
  · unfold okPtr Mem.at
    rw [hoff]
    simp only [Fv.Forbids]
    decide +kernel
  · rw [Cells, if_pos hok, hoff] at hc
    by_cases h : i = 1
    · exact absurd ⟨1, by omega, .inl (show 1 < 2 by decide)⟩ hc
    · simp [h]
  · rw [Hold, if_pos hok]
    refine ⟨⟨.raw [1, 2], rfl, ?_, fun h => h⟩, trivial⟩
    intro i hi
    have hi : i < 2 := hi
    unfold okPtr
    rw [hoff]
    match i, hi with
    | 0, _ => rfl
    | 1, _ => rfl

/-- `AtomicBool` has forbidden values but no unused bits: storing `false` to `Some(true)` keeps the variant. -/
example : Full (.result (.cell .bool) (.plain .unit)) ∧ ¬ Quiet (.result (.cell .bool) (.plain .unit)) ∧
    Step (.result (.cell .bool) (.plain .unit)) (fun _ => 1) (fun _ => 0) := by
  have hok : isOk (CTy.cell Ty.bool).ty.lay (CTy.plain Ty.unit).ty.lay (fun _ => 1) = true := by decide +kernel
  have hoff : okOffset (CTy.cell Ty.bool).ty.lay (CTy.plain Ty.unit).ty.lay = 0 := by decide +kernel
  refine ⟨⟨rfl, trivial⟩, fun h => absurd h.1.1 (by simp [Ty.bool, Ty.lay, Lay.prim]), fun i hi hc => ?_, ?_⟩
  · have hi : i < 1 := hi
    rw [Cells, if_pos hok, hoff] at hc
    exact absurd ⟨i, by omega, hi⟩ hc
  · rw [Hold, if_pos hok]
    refine ⟨.raw [0], rfl, fun i hi => ?_, by simp only [Fv.Forbids]; decide +kernel⟩
    have hi : i < 1 := hi
    match i, hi with
    | 0, _ => rfl

/-! ### Cells with niches -/

/-- `Option` of a cell is free of races exactly if it is larger than the cell: if the tag is not a niche of what the cell holds. -/
theorem C95_option_iff (t : Ty) (h : t.WF) (hs : t.lay.size % t.lay.align = 0) (v : Val) (hv : HasTy t v) :
    (∀ m, Rep (.result t .unit) (.ok v) m → ∀ i, Cells (.result (.cell t) (.plain .unit)) m i → i ∉ (provider t.lay Ty.unit.lay).det.reads) ↔
      t.lay.size < (resultLay t.lay Ty.unit.lay).size := by
  have g := ty_good h
  have hu : Ty.unit.WF := prim_wf ⟨0, rfl⟩
  have hp := g.align.pos
  have hwf : (Ty.result t .unit).WF := ⟨h, hu, by
    have e1 : Ty.unit.lay.size = 0 := rfl
    have e2 : Ty.unit.lay.align = 1 := rfl
    rw [e1, e2, Nat.max_eq_left (Nat.zero_le _), Nat.max_eq_left hp]; exact hs⟩
  have hsz : (resultLay t.lay Ty.unit.lay).size = detSize t.lay Ty.unit.lay + t.lay.size := by
    simp [resultLay, Ty.unit, Ty.lay, Lay.prim]
  have hr := C95_reads hwf
  cases res_ok g (ty_good hu) with
  | bit det det1 okOff errOff ub =>
    have hpos : 0 < resAlign t.lay Ty.unit.lay := (g.align.max (ty_good hu).align).pos
    refine ⟨fun _ => by omega, fun _ m _ i hc hi => ?_⟩
    have : i = 0 := by rcases det with h | h <;> simpa [h, Det.reads] using hi
    simp only [Cells] at hc
    split at hc
    · obtain ⟨j, e, _⟩ := hc
      simp only [CTy.ty] at e
      omega
    · obtain ⟨j, e, hc⟩ := hc
      exact hc
  | niche det0 self trick ub sound alOk alErr =>
    refine ⟨fun hc => ?_, fun hlt => by omega⟩
    exfalso
    have hprov : (provider t.lay Ty.unit.lay) = ⟨0, 0, (withUnit t.lay.fv.selectOne t.lay.ub).det, (withUnit t.lay.fv.selectOne t.lay.ub).exported⟩ := by
      unfold provider inner
      rw [if_pos (show t.lay.size ≥ Ty.unit.lay.size from Nat.zero_le _), if_pos (show Ty.unit.lay.size = 0 from rfl)]
      simp only [Prov.mk.injEq, true_and, and_true]
      unfold withUnit
      split <;> rfl
    obtain ⟨o, ho⟩ : ∃ o, o ∈ (provider t.lay Ty.unit.lay).det.reads := by
      rw [hprov] at trick ⊢
      simp only [withUnit] at trick ⊢
      split
      · rename_i o v tail _
        exact ⟨o, by simp [intoValueIsErr, Det.reads]⟩
      · exact ⟨_, by simp [Det.reads]; rfl⟩
      · exact ⟨0, by simp [Det.reads]⟩
    have hlt := (hr o ho).1
    have hoff : okOffset t.lay Ty.unit.lay = 0 := by unfold okOffset; rw [hprov, det0]
    have hm := mkOk_rep hwf (encode_rep h hv)
    refine hc _ hm o ?_ ho
    rw [Cells, if_pos (show isOk (CTy.cell t).ty.lay (CTy.plain Ty.unit).ty.lay _ = true from hm.1)]
    refine ⟨o, show o = okOffset t.lay Ty.unit.lay + o by omega, ?_⟩
    have : (Ty.result t .unit).lay.size = t.lay.size := by show (resultLay t.lay Ty.unit.lay).size = _; omega
    rw [this] at hlt
    exact hlt
example : Ty.bool.WF ∧ HasTy .bool (.raw [1]) ∧ HasTy .u16 (.raw [1, 2]) ∧ (resultLay Ty.bool.lay Ty.unit.lay).size = 1 ∧
    (resultLay Ty.u16.lay Ty.unit.lay).size = 4 :=
  ⟨⟨⟨0, rfl⟩, show (2 : Byte) ≤ 255 by decide, by simp [Fv.offsets]⟩, ⟨rfl, by simp only [Fv.Forbids]; decide +kernel⟩, ⟨rfl, fun h => h⟩, by decide +kernel,
    by decide +kernel⟩

/-- Refuted: `is_some` of an `Option<AtomicBool>` reads the byte that a thread with a reference from `as_ref` may store to at the same time. -/
theorem C95_race_refuted : ∃ m, Rep (.result .bool .unit) (.ok (.raw [1])) m ∧ Cells (.result (.cell .bool) (.plain .unit)) m 0 ∧
    0 ∈ (provider Ty.bool.lay Ty.unit.lay).det.reads := by
  have hwf : (Ty.result .bool .unit).WF := ⟨⟨⟨0, rfl⟩, show (2 : Byte) ≤ 255 by decide, by simp [Fv.offsets]⟩, prim_wf ⟨0, rfl⟩, by decide⟩
  have hm := mkOk_rep hwf (encode_rep hwf.1 (v := .raw [1]) ⟨rfl, by simp only [Fv.Forbids]; decide +kernel⟩)
  refine ⟨_, hm, ?_, by decide +kernel⟩
  rw [Cells, if_pos (show isOk (CTy.cell .bool).ty.lay (CTy.plain Ty.unit).ty.lay _ = true from hm.1)]
  exact ⟨0, by decide +kernel, show 0 < 1 by decide⟩

/-- A lock: an `AtomicU16` and an `UnsafeCell` with the pair `(u8, u16)`, in which there is a byte of padding. -/
def lock : CTy := .struct (.fieldPair (.cell .u16) (.cell (.tuple2 .u8 .u16)))

/-- Refuted: someone who takes the lock in `Some(lock)` and stores a pair to it also writes the padding, where the tag is.  The bit of the tag may come
out as 1, and then the option is `None`. -/
theorem C95_variant_refuted : ∃ v m m', Rep (CTy.result lock (.plain .unit)).ty (.ok v) m ∧ Step (.result lock (.plain .unit)) m m' ∧
    isOk lock.ty.lay Ty.unit.lay m = true ∧ isOk lock.ty.lay Ty.unit.lay m' = false ∧ ∀ i, i ≠ 3 → m' i = m i := by
  have hoff : okOffset lock.ty.lay (CTy.plain Ty.unit).ty.lay = 0 := by decide +kernel
  have hok : isOk lock.ty.lay (CTy.plain Ty.unit).ty.lay (fun _ => 0) = true := by decide +kernel
  have hz : ∀ o : Nat, Mem.at (fun _ => 0) o = fun _ => 0 := fun o => rfl
  have e1 : alignUp (CTy.cell .u16).ty.lay.size (CTy.cell (.tuple2 .u8 .u16)).ty.lay.align = 2 := by decide +kernel
  have e2 : alignUp Ty.u8.lay.size Ty.u16.lay.align = 2 := by decide +kernel
  have r16 : Rep .u16 (.raw [0, 0]) (fun _ => 0) := ⟨rfl, fun i hi => by
    have hi : i < 2 := hi
    match i, hi with
    | 0, _ => rfl
    | 1, _ => rfl, fun h => h⟩
  have r8 : ∀ m : Mem, m 0 = 0 → Rep .u8 (.raw [0]) m := fun m hm => ⟨rfl, fun i hi => by
    have hi : i < 1 := hi
    match i, hi with
    | 0, _ => exact hm, fun h => h⟩
  refine ⟨.pair (.raw [0, 0]) (.pair (.raw [0]) (.raw [0, 0])), fun _ => 0, fun i => if i = 3 then 1 else 0,
    ⟨hok, r16, r8 _ rfl, r16⟩, ⟨fun i _ hc => ?_, ?_⟩, hok, by decide +kernel, fun i hi => by simp [hi]⟩
  · rw [Cells, if_pos hok, hoff] at hc
    by_cases h : i = 3
    · refine absurd ⟨3, by omega, .inr ⟨1, ?_, ?_⟩⟩ hc
      · rw [e1]
      · show 1 < 4; decide
    · simp [h]
  · rw [Hold, if_pos hok]
    unfold okPtr
    rw [hoff]
    refine ⟨⟨.raw [0, 0], rfl, fun i hi => ?_, fun h => h⟩, ⟨.pair (.raw [0]) (.raw [0, 0]), r8 _ (by rw [e1]; rfl), rfl, fun i hi => ?_, fun h => h⟩⟩
    · have hi : i < 2 := hi
      match i, hi with
      | 0, _ => rfl
      | 1, _ => rfl
    · have hi : i < 2 := hi
      rw [e1, e2]
      match i, hi with
      | 0, _ => rfl
      | 1, _ => rfl

/-- Refuted for a type with a safe interface: the tag of `Option<RMutex<(u8, u16)>>` is in the padding of the locked pair, as the forbidden values of
the reference after it are not found (`C94_option_refuted`). -/
theorem C95_rmutex_refuted (m : Mem) (h : isOk (CTy.rmutex (.tuple2 .u8 .u16)).ty.lay Ty.unit.lay m = true) :
    (provider (CTy.rmutex (.tuple2 .u8 .u16)).ty.lay Ty.unit.lay).det = .bitIsErr 9 1 ∧
      Cells (.result (.rmutex (.tuple2 .u8 .u16)) (.plain .unit)) m 9 := by
  refine ⟨by decide +kernel, ?_⟩
  rw [Cells, if_pos (show isOk (CTy.rmutex (.tuple2 .u8 .u16)).ty.lay (CTy.plain Ty.unit).ty.lay m = true from h)]
  exact ⟨9, by decide +kernel, .inl (.inr ⟨1, by decide +kernel, show 1 < 4 by decide⟩)⟩
example : isOk (CTy.rmutex (.tuple2 .u8 .u16)).ty.lay Ty.unit.lay (fun i => if i < 8 then 0 else 4) = true := by decide +kernel

end Verif.Props.Cell
