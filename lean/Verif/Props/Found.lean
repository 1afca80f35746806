import Verif.Props.Sum

/-! Property C94: when a `Result` needs no room for its tag. -/
namespace Verif.Props.Found
open Verif.Layout Verif.Sum

/-- Bit `b` of byte `i` of a union of `n` bytes is not used by a member that lies at offset `s`. -/
def Spare (n : Nat) (t : Lay) (s i b : Nat) : Prop :=
  i < n ∧ b < 8 ∧ (i < s ∨ s + t.size ≤ i ∨ (s ≤ i ∧ t.ub.Unused (i - s) b))

/-- The bytes that one of the values a type declares forbidden is made of. -/
inductive Lists : Fv → List Nat → Prop where
  | last (p v) : Lists (.byte p v .none) [p]
  | byte (p v r os) : Lists r os → Lists (.byte p v r) (p :: os)
  | left (a b os) : Lists a os → Lists (.or a b) os
  | right (a b os) : Lists b os → Lists (.or a b) os
  | range (mn mx p) : Lists (.range mn mx p) [p]

/-- Something tells `x` at offset `s` from `y` at offset `t`, in a union of `n` bytes: a forbidden value of one in bytes that the other does
not use, or a bit that neither uses. -/
def Tells (n : Nat) (x : Lay) (s : Nat) (y : Lay) (t : Nat) : Prop :=
  (∃ os, Lists x.fv os ∧ ∀ o ∈ os, ∀ b < 8, Spare n y t (s + o) b) ∨
  (∃ os, Lists y.fv os ∧ ∀ o ∈ os, ∀ b < 8, Spare n x s (t + o) b) ∨
  ∃ i b, Spare n x s i b ∧ Spare n y t i b

/-- The bytes of a union of two types. -/
def room (x y : Lay) : Nat := (max x.size y.size + (max x.align y.align - 1)) / max x.align y.align * max x.align y.align

theorem Tells.symm {n : Nat} {x y : Lay} {s t : Nat} (h : Tells n x s y t) : Tells n y t x s := by
  rcases h with h | h | ⟨i, b, h1, h2⟩
  · exact .inr (.inl h)
  · exact .inl h
  · exact .inr (.inr ⟨i, b, h2, h1⟩)

theorem unused_member {t : Lay} {s n i b : Nat} (hb : b < 8) (h : t.size + s ≤ n) (g : t.Good) :
    (errUnusedBits n t.ub t.size s).Unused i b ↔ Spare n t s i b := by
  unfold errUnusedBits Spare
  rw [Mask.bitOr_eq, Mask.bitOr_eq, Mask.unused_append, Mask.unused_append, Mask.unused_pad hb, Mask.unused_shift, Mask.unused_shift]
  constructor
  · rintro (h1 | ⟨j, rfl, h1⟩ | ⟨j, rfl, h1⟩)
    · exact ⟨by omega, hb, .inl h1⟩
    · obtain ⟨v, hm, hv⟩ := h1
      have := (g.ub.range j v hm).2
      refine ⟨by omega, hb, .inr (.inr ⟨by omega, ?_⟩)⟩
      rw [Nat.add_sub_cancel]; exact ⟨v, hm, hv⟩
    · have := (Mask.unused_pad hb).1 h1
      exact ⟨by omega, hb, .inr (.inl (by omega))⟩
  · rintro ⟨h1, _, h2 | h2 | ⟨h2, h3⟩⟩
    · exact .inl h2
    · exact .inr (.inr ⟨i - (t.size + s), by omega, (Mask.unused_pad hb).2 (by omega)⟩)
    · exact .inr (.inl ⟨i - s, by omega, h3⟩)

theorem free_iff {k : Mask} {lo hi o : Nat} (g : k.Good lo hi) : k.hasFreeByteAt o = true ↔ ∀ b < 8, k.Unused o b := by
  rw [Mask.hasFreeByteAt_iff]
  constructor
  · intro h b hb; exact Mask.unused_of_free h hb
  · intro h
    obtain ⟨v, hm, hv⟩ := h 0 (by omega)
    rwa [(g.top o v hm).2 hv] at hm

theorem byteAt_eq {k : Mask} {i : Nat} {v : Byte} (hn : (k.map Prod.fst).Nodup) (h : (i, v) ∈ k) : k.byteAt i = v := by
  induction k with
  | nil => cases h
  | cons e r ih =>
    obtain ⟨p, w⟩ := e
    rw [List.map_cons, List.nodup_cons] at hn
    rcases List.mem_cons.1 h with h | h
    · cases h; simp [Mask.byteAt]
    · have : p ≠ i := by rintro rfl; exact hn.1 (List.mem_map.2 ⟨_, h, rfl⟩)
      simp only [Mask.byteAt, if_neg this]
      exact ih hn.2 h

theorem bitAnd_ne {a k : Mask} {lo hi : Nat} (g : k.Good lo hi) : a.bitAnd k ≠ [] ↔ ∃ i b, b < 8 ∧ a.Unused i b ∧ k.Unused i b := by
  constructor
  · intro h
    obtain ⟨⟨i, v⟩, r, he⟩ : ∃ e r, a.bitAnd k = e :: r := by
      cases hc : a.bitAnd k with
      | nil => exact absurd hc h
      | cons e r => exact ⟨e, r, rfl⟩
    have hm : (i, v) ∈ a.bitAnd k := by rw [he]; simp
    obtain ⟨w, hw, hv, hne⟩ := Mask.mem_bitAnd hm
    have : ∃ b < 8, v.getLsbD b = true := by
      refine Classical.byContradiction fun hc => ?_
      exact hne (byte_ext fun b hb => by
        cases hx : v.getLsbD b with
        | false => simp
        | true => exact absurd ⟨b, hb, hx⟩ hc)
    obtain ⟨b, hb, hx⟩ := this
    exact ⟨i, b, hb, Mask.unused_bitAnd ⟨v, hm, hx⟩⟩
  · rintro ⟨i, b, hb, ⟨w, hw, hwb⟩, ⟨w', hw', hwb'⟩⟩
    have hk := byteAt_eq g.nodup hw'
    induction a with
    | nil => cases hw
    | cons e r ih =>
      obtain ⟨p, u⟩ := e
      simp only [Mask.bitAnd]
      rcases List.mem_cons.1 hw with h | h
      · cases h
        rw [if_neg]
        · simp
        · intro h0
          rw [hk] at h0
          have := congrArg (fun x : Byte => x.getLsbD b) h0
          simp [hwb, hwb'] at this
      · split
        · exact ih h
        · simp

theorem selectFrom_bytes {f : Fv} {k : Mask} (h : f.IsBytes) :
    (f = .none ∧ f.selectFrom k = .bytes []) ∨
      (f ≠ .none ∧ ((∃ e l, f.selectFrom k = .bytes (e :: l)) ∧ (∃ os, Lists f os ∧ ∀ o ∈ os, k.hasFreeByteAt o = true) ∨
        f.selectFrom k = .saturator ∧ ¬ ∃ os, Lists f os ∧ ∀ o ∈ os, k.hasFreeByteAt o = true)) := by
  induction f with
  | none => exact .inl ⟨rfl, rfl⟩
  | or a b => exact h.elim
  | range => exact h.elim
  | byte p v r ih =>
    refine .inr ⟨by simp, ?_⟩
    have hl : ∀ os, Lists (.byte p v r) os → p ∈ os ∧ (r = .none ∨ ∃ os', os = p :: os' ∧ Lists r os') := by
      rintro os (_ | ⟨_, _, _, os', h'⟩ | _ | _ | _)
      · exact ⟨by simp, .inl rfl⟩
      · exact ⟨by simp, .inr ⟨os', rfl, h'⟩⟩
    cases hp : k.hasFreeByteAt p with
    | false =>
      refine .inr ⟨by simp [Fv.selectFrom, hp, Sfv.and], ?_⟩
      rintro ⟨os, h1, h2⟩
      have := h2 p (hl os h1).1
      rw [hp] at this; cases this
    | true =>
      rcases ih h with ⟨rfl, h1⟩ | ⟨hne, ⟨⟨e, l, h1⟩, os, h2, h3⟩ | ⟨h1, h2⟩⟩
      · refine .inl ⟨⟨(p, v), [], by simp [Fv.selectFrom, hp, Sfv.and, Sfv.push]⟩, [p], .last p v, by simpa using hp⟩
      · refine .inl ⟨⟨(p, v), e :: l, by simp [Fv.selectFrom, hp, Sfv.and, Sfv.push, h1]⟩, p :: os, .byte p v r os h2, ?_⟩
        intro o ho
        rcases List.mem_cons.1 ho with rfl | ho
        · exact hp
        · exact h3 o ho
      · refine .inr ⟨by simp [Fv.selectFrom, hp, Sfv.and, Sfv.push, h1], ?_⟩
        rintro ⟨os, h3, h4⟩
        rcases (hl os h3).2 with rfl | ⟨os', rfl, h5⟩
        · exact hne rfl
        · exact h2 ⟨os', h5, fun o ho => h4 o (List.mem_cons_of_mem _ ho)⟩

theorem selectFrom_ne {f : Fv} {k : Mask} (h : f.WF) :
    (f.selectFrom k).resolve ≠ [] ↔ ∃ os, Lists f os ∧ ∀ o ∈ os, k.hasFreeByteAt o = true := by
  induction f with
  | none =>
    constructor
    · intro h; simp [Fv.selectFrom, Sfv.resolve] at h
    · rintro ⟨os, h, _⟩; cases h
  | byte p v r _ =>
    rcases selectFrom_bytes (f := .byte p v r) (k := k) h.1 with ⟨h1, _⟩ | ⟨_, ⟨⟨e, l, h1⟩, h2⟩ | ⟨h1, h2⟩⟩
    · cases h1
    · rw [h1]; exact ⟨fun _ => h2, fun _ => by simp [Sfv.resolve]⟩
    · rw [h1]; exact ⟨fun h => by simp [Sfv.resolve] at h, fun h => absurd h h2⟩
  | or a b iha ihb =>
    have : ((a.selectFrom k).or (b.selectFrom k)).resolve ≠ [] ↔ (a.selectFrom k).resolve ≠ [] ∨ (b.selectFrom k).resolve ≠ [] := by
      cases a.selectFrom k with
      | saturator => simp [Sfv.or, Sfv.resolve]
      | bytes l => cases l <;> simp [Sfv.or, Sfv.resolve]
    show ((a.selectFrom k).or (b.selectFrom k)).resolve ≠ [] ↔ _
    rw [this, iha h.1, ihb h.2]
    constructor
    · rintro (⟨os, h1, h2⟩ | ⟨os, h1, h2⟩)
      · exact ⟨os, .left a b os h1, h2⟩
      · exact ⟨os, .right a b os h1, h2⟩
    · rintro ⟨os, _ | _ | ⟨_, _, _, h1⟩ | ⟨_, _, _, h1⟩ | _, h2⟩
      · exact .inl ⟨os, h1, h2⟩
      · exact .inr ⟨os, h1, h2⟩
  | range mn mx p =>
    constructor
    · intro h1
      refine ⟨[p], .range mn mx p, ?_⟩
      cases hp : k.hasFreeByteAt p with
      | true => simpa using hp
      | false => simp [Fv.selectFrom, hp, Sfv.resolve] at h1
    · rintro ⟨os, _ | _ | _ | _ | _, h2⟩
      have := h2 p (by simp)
      simp [Fv.selectFrom, this, Sfv.resolve]

theorem lists_shift {f : Fv} {s : Nat} {os : List Nat} : Lists (f.shift s) os ↔ ∃ os', Lists f os' ∧ os = os'.map (· + s) := by
  constructor
  · intro h
    induction f generalizing os with
    | none => cases h
    | byte p v r ih =>
      cases r with
      | none =>
        rcases h with _ | ⟨_, _, _, _, h'⟩ | _ | _ | _
        · exact ⟨[p], .last p v, rfl⟩
        · cases h'
      | byte _ _ _ | or _ _ | range _ _ _ =>
        rcases h with _ | ⟨_, _, _, os', h'⟩ | _ | _ | _
        obtain ⟨os'', h1, rfl⟩ := ih h'
        exact ⟨p :: os'', .byte p v _ _ h1, rfl⟩
    | or a b iha ihb =>
      rcases h with _ | _ | ⟨_, _, _, h⟩ | ⟨_, _, _, h⟩ | _
      · obtain ⟨os', h1, h2⟩ := iha h
        exact ⟨os', .left a b os' h1, h2⟩
      · obtain ⟨os', h1, h2⟩ := ihb h
        exact ⟨os', .right a b os' h1, h2⟩
    | range mn mx p =>
      cases h
      exact ⟨[p], .range mn mx p, rfl⟩
  · rintro ⟨os', h, rfl⟩
    induction h with
    | last p v => exact .last _ _
    | byte p v r os _ ih => exact .byte _ _ _ _ ih
    | left a b os _ ih => exact .left _ _ _ ih
    | right a b os _ ih => exact .right _ _ _ ih
    | range mn mx p => exact .range _ _ _

theorem tells_iff {x y : Lay} {n s : Nat} (gx : x.Good) (gy : y.Good) (hx : x.size ≤ n) (hy : y.size + s ≤ n) :
    (((y.fv.shift s).selectFrom (errUnusedBits n x.ub x.size 0)).resolve ≠ [] ∨
      (x.fv.selectFrom (errUnusedBits n y.ub y.size s)).resolve ≠ [] ∨
      (errUnusedBits n x.ub x.size 0).bitAnd (errUnusedBits n y.ub y.size s) ≠ []) ↔ Tells n x 0 y s := by
  have mx := errUb_member gx (off := 0) (usz := n) (by omega)
  have my := errUb_member gy hy
  rw [selectFrom_ne (Fv.wf_shift gy.fvWF), selectFrom_ne gx.fvWF, bitAnd_ne my.good]
  simp only [free_iff mx.good, free_iff my.good]
  unfold Tells
  constructor
  · rintro (⟨os, h1, h2⟩ | ⟨os, h1, h2⟩ | ⟨i, b, hb, h1, h2⟩)
    · obtain ⟨os', h3, rfl⟩ := lists_shift.1 h1
      refine .inr (.inl ⟨os', h3, fun o ho b hb => ?_⟩)
      rw [Nat.add_comm]
      exact (unused_member hb (by omega) gx).1 (h2 (o + s) (List.mem_map.2 ⟨o, ho, rfl⟩) b hb)
    · refine .inl ⟨os, h1, fun o ho b hb => ?_⟩
      rw [Nat.zero_add]
      exact (unused_member hb hy gy).1 (h2 o ho b hb)
    · exact .inr (.inr ⟨i, b, (unused_member hb (by omega) gx).1 h1, (unused_member hb hy gy).1 h2⟩)
  · rintro (⟨os, h1, h2⟩ | ⟨os, h1, h2⟩ | ⟨i, b, h1, h2⟩)
    · refine .inr (.inl ⟨os, h1, fun o ho b hb => ?_⟩)
      have := h2 o ho b hb
      rw [Nat.zero_add] at this
      exact (unused_member hb hy gy).2 this
    · refine .inl ⟨_, lists_shift.2 ⟨os, h1, rfl⟩, fun o ho b hb => ?_⟩
      obtain ⟨o', ho', rfl⟩ := List.mem_map.1 ho
      have := h2 o' ho' b hb
      rw [Nat.add_comm] at this
      exact (unused_member hb (by omega) gx).2 this
    · exact .inr (.inr ⟨i, b, h1.2.1, (unused_member h1.2.1 (by omega) gx).2 h1, (unused_member h1.2.1 hy gy).2 h2⟩)

/-- What the search returns: the first place where something tells the variants apart. -/
theorem search_first {x y : Lay} {n : Nat} (gx : x.Good) (gy : y.Good) (hx : x.size ≤ n) (budget s : Nat) (hs : y.size + s ≤ n) :
    (∃ k < budget, y.size + (s + k * y.align) ≤ n ∧ Tells n x 0 y (s + k * y.align) ∧
      (∀ j < k, ¬ Tells n x 0 y (s + j * y.align)) ∧
      (search n x.fv (errUnusedBits n x.ub x.size 0) y.fv y.ub y.size y.align budget s).errShift = s + k * y.align ∧
      (search n x.fv (errUnusedBits n x.ub x.size 0) y.fv y.ub y.size y.align budget s).det.isNicheTrick = true) ∨
    (∀ k < budget, y.size + (s + k * y.align) ≤ n → ¬ Tells n x 0 y (s + k * y.align)) ∧
      (search n x.fv (errUnusedBits n x.ub x.size 0) y.fv y.ub y.size y.align budget s) = ⟨0, .bit, []⟩ := by
  induction budget generalizing s with
  | zero => exact .inr ⟨fun k hk => by omega, rfl⟩
  | succ m ih =>
    have ht := tells_iff gx gy hx hs
    unfold search
    dsimp only
    cases h1 : ((y.fv.shift s).selectFrom (errUnusedBits n x.ub x.size 0)).resolve with
    | cons e l =>
      obtain ⟨o, v⟩ := e
      exact .inl ⟨0, by omega, by omega, by simpa using ht.1 (.inl (by simp [h1])), fun j hj => by omega, by simp, rfl⟩
    | nil =>
      cases h2 : (x.fv.selectFrom (errUnusedBits n y.ub y.size s)).resolve with
      | cons e l =>
        obtain ⟨o, v⟩ := e
        exact .inl ⟨0, by omega, by omega, by simpa using ht.1 (.inr (.inl (by simp [h2]))), fun j hj => by omega, by simp, rfl⟩
      | nil =>
        cases h3 : (errUnusedBits n x.ub x.size 0).bitAnd (errUnusedBits n y.ub y.size s) with
        | cons e l =>
          obtain ⟨o, v⟩ := e
          exact .inl ⟨0, by omega, by omega, by simpa using ht.1 (.inr (.inr (by simp [h3]))), fun j hj => by omega, by simp, rfl⟩
        | nil =>
          have hno : ¬ Tells n x 0 y s := by
            rw [← ht, h1, h2, h3]; simp
          have hstep : ∀ k, s + (k + 1) * y.align = y.align + s + k * y.align := fun k => by rw [Nat.add_mul]; omega
          dsimp only
          split
          · rename_i hfit
            rcases ih (y.align + s) (by omega) with ⟨k, hk, h4, h5, h6, h7, h8⟩ | ⟨h4, h5⟩
            · refine .inl ⟨k + 1, by omega, by rw [hstep]; exact h4, by rw [hstep]; exact h5, ?_, by rw [hstep]; exact h7, h8⟩
              intro j hj
              cases j with
              | zero => simpa using hno
              | succ j => rw [hstep]; exact h6 j (by omega)
            · refine .inr ⟨fun k hk hf => ?_, h5⟩
              cases k with
              | zero => simpa using hno
              | succ k => rw [hstep] at hf ⊢; exact h4 k (by omega) hf
          · rename_i hfit
            refine .inr ⟨fun k hk hf => ?_, rfl⟩
            cases k with
            | zero => simpa using hno
            | succ k =>
              rw [hstep] at hf
              omega

theorem room_eq {x y : Lay} (gx : x.Good) (gy : y.Good) : unionSize x y 0 0 = room x y := by
  have hp := (gx.align.max gy.align).pos
  unfold unionSize room
  simp only [Nat.add_zero]
  generalize max x.size y.size = n
  generalize hm : max x.align y.align = a at *
  unfold nextMul
  have hd := Nat.div_add_mod n a
  have hr := Nat.mod_lt n hp
  split
  · rename_i h0
    have : (n + (a - 1)) / a = n / a := by
      rw [h0, Nat.add_zero] at hd
      have e : n + (a - 1) = (a - 1) + a * (n / a) := by omega
      rw [e, Nat.add_mul_div_left _ _ hp, Nat.div_eq_of_lt (by omega), Nat.zero_add]
    rw [this, Nat.mul_comm]; omega
  · rename_i h0
    have : (n + (a - 1)) / a = n / a + 1 := by
      have e : n + (a - 1) = a * (n / a + 1) + (n % a - 1) := by rw [Nat.mul_add]; omega
      rw [e, Nat.add_comm, Nat.add_mul_div_left _ _ hp, Nat.div_eq_of_lt (by omega), Nat.zero_add]
    rw [this, Nat.add_mul, Nat.mul_comm]; omega

theorem room_comm (x y : Lay) : room x y = room y x := by
  unfold room; rw [Nat.max_comm x.size, Nat.max_comm x.align]

theorem size_le_room {x y : Lay} (gx : x.Good) (gy : y.Good) : x.size ≤ room x y := by
  rw [← room_eq gx gy]
  unfold unionSize
  have := le_nextMul (max (x.size + 0) (y.size + 0)) (max x.align y.align)
  omega

/-- Whether the search finds a niche, for a larger variant `x` and a smaller `y` of non-zero size. -/
theorem inner_iff {x y : Lay} (gx : x.Good) (gy : y.Good) (h : y.size ≤ x.size) (h0 : y.size ≠ 0) :
    (inner x y).det.isNicheTrick = true ↔
      ∃ k < 8, k * y.align + y.size ≤ room x y ∧ Tells (room x y) x 0 y (k * y.align) := by
  have hsz := size_le_room gx gy
  have e : unionMemberUnusedBits x y 0 = errUnusedBits (room x y) x.ub x.size 0 := by
    rw [← room_eq gx gy]
    simp [unionMemberUnusedBits, errUnusedBits, Mask.bitOr_eq, padMask]
  unfold inner
  rw [if_neg h0, e, room_eq gx gy]
  rcases search_first gx gy hsz 8 0 (by omega) with ⟨k, hk, h1, h2, _, _, h3⟩ | ⟨h1, h2⟩
  · simp only [Nat.zero_add] at h1 h2
    exact ⟨fun _ => ⟨k, hk, by omega, h2⟩, fun _ => h3⟩
  · rw [h2]
    refine ⟨fun h => by simp [Det.isNicheTrick] at h, ?_⟩
    rintro ⟨k, hk, h3, h4⟩
    have := h1 k hk (by omega)
    rw [Nat.zero_add] at this
    exact absurd h4 this

/-- C94, for two payloads of non-zero size: no room is taken for a tag exactly when the payloads can be told apart with the larger at the start
and the smaller at one of the first eight multiples of its alignment where it fits.  Missing: later places, and niches of results inside the payloads (see the
refutations). -/
theorem C94_found_partial (ok err : Lay) (gok : ok.Good) (gerr : err.Good) (h0 : ok.size ≠ 0) (h1 : err.size ≠ 0) :
    (resultLay ok err).size = max ok.size err.size ↔
      ∃ k < 8, if err.size ≤ ok.size then k * err.align + err.size ≤ room ok err ∧ Tells (room ok err) ok 0 err (k * err.align)
        else k * ok.align + ok.size ≤ room ok err ∧ Tells (room ok err) ok (k * ok.align) err 0 := by
  have hs := Verif.Props.Sum.C13_size ok err gok gerr
  have hp := (gok.align.max gerr.align).pos
  have key : (resultLay ok err).size = max ok.size err.size ↔ (provider ok err).det.isNicheTrick = true := by
    cases hc : (provider ok err).det.isNicheTrick with
    | true => exact ⟨fun _ => rfl, fun _ => hs.2.1 hc⟩
    | false =>
      have := hs.2.2 hc
      exact ⟨fun h => by omega, fun h => by cases h⟩
  rw [key]
  unfold provider
  by_cases hle : err.size ≤ ok.size
  · simp only [ge_iff_le, hle, if_true]
    exact inner_iff gok gerr hle h1
  · simp only [ge_iff_le, hle, if_false, Det.isNicheTrick]
    rw [inner_iff gerr gok (by omega) h0, room_comm]
    exact ⟨fun ⟨k, a, b, c⟩ => ⟨k, a, b, c.symm⟩, fun ⟨k, a, b, c⟩ => ⟨k, a, b, c.symm⟩⟩

/-- C94, for a payload of size zero (`Option`): no room is taken exactly when the other payload declares a forbidden value or an unused bit.
Missing: payloads whose first field declares no forbidden value while a later one does (`hf`; see `C94_option_refuted`). -/
theorem C94_option_partial (t z : Lay) (gt : t.Good) (gz : z.Good) (h0 : t.size ≠ 0) (hz : z.size = 0) (hf : t.fv = .none ∨ t.fv.selectOne ≠ []) :
    ((resultLay t z).size = t.size ↔ t.fv ≠ .none ∨ ∃ i b, t.ub.Unused i b) ∧ (resultLay z t).size = (resultLay t z).size := by
  have hp := (gt.align.max gz.align).pos
  have hs := Verif.Props.Sum.C13_size t z gt gz
  have hs' := Verif.Props.Sum.C13_size z t gz gt
  have e1 : (provider t z).det = (withUnit t.fv.selectOne t.ub).det := by
    unfold provider inner
    rw [if_pos (by omega), if_pos hz]
  have e2 : (provider z t).det = .not (withUnit t.fv.selectOne t.ub).det := by
    unfold provider inner
    rw [if_neg (by omega), if_pos hz]
  have e3 : (provider z t).det.isNicheTrick = (provider t z).det.isNicheTrick := by rw [e1, e2]; rfl
  have key : (provider t z).det.isNicheTrick = true ↔ t.fv ≠ .none ∨ ∃ i b, t.ub.Unused i b := by
    rw [e1]
    rcases hf with hf | hf
    · rw [hf]
      cases hu : t.ub with
      | nil =>
        refine ⟨fun h => by simp [withUnit, Fv.selectOne, Det.isNicheTrick] at h, ?_⟩
        rintro (h | ⟨i, b, v, hm, _⟩)
        · exact absurd rfl h
        · cases hm
      | cons e r =>
        obtain ⟨o, v⟩ := e
        refine ⟨fun _ => .inr ?_, fun _ => rfl⟩
        have hv := (gt.ub.top o v (by rw [hu]; simp)).1
        refine Classical.byContradiction fun hc => ?_
        refine hv (byte_ext fun b hb => ?_)
        cases hx : v.getLsbD b with
        | false => simp
        | true => exact absurd ⟨o, b, v, by simp, hx⟩ hc
    · refine ⟨fun _ => .inl ?_, fun _ => ?_⟩
      · intro h; rw [h] at hf; exact hf rfl
      · cases hc : t.fv.selectOne with
        | nil => exact absurd hc hf
        | cons e r => obtain ⟨o, v⟩ := e; rfl
  have hp' : 0 < max z.align t.align := by rw [Nat.max_comm]; exact hp
  cases hc : (provider t z).det.isNicheTrick with
  | true =>
    have h1 := hs.2.1 hc
    have h2 := hs'.2.1 (by rw [e3]; exact hc)
    rw [hz, Nat.max_eq_left (Nat.zero_le _)] at h1
    rw [hz, Nat.max_eq_right (Nat.zero_le _)] at h2
    exact ⟨⟨fun _ => key.1 hc, fun _ => h1⟩, by rw [h1, h2]⟩
  | false =>
    have h1 := hs.2.2 hc
    have h2 := hs'.2.2 (by rw [e3]; exact hc)
    have e4 : max z.align t.align = max t.align z.align := Nat.max_comm _ _
    have e5 : max z.size t.size = max t.size z.size := Nat.max_comm _ _
    refine ⟨⟨fun h => ?_, fun h => ?_⟩, by omega⟩
    · rw [hz, Nat.max_eq_left (Nat.zero_le _)] at h1; omega
    · rw [key.2 h] at hc; cases hc

/-- C94: `Result<A, B>` and `Result<B, A>` have the same size. -/
theorem C94_symmetric (a b : Lay) (ga : a.Good) (gb : b.Good) (ha : a.align ∣ a.size) (hb : b.align ∣ b.size) (h0 : a.size ≠ 0) (h1 : b.size ≠ 0) :
    (resultLay a b).size = (resultLay b a).size := by
  have hs := Verif.Props.Sum.C13_size a b ga gb
  have hs' := Verif.Props.Sum.C13_size b a gb ga
  have hp := (ga.align.max gb.align).pos
  have e4 : max b.align a.align = max a.align b.align := Nat.max_comm _ _
  have e5 : max b.size a.size = max a.size b.size := Nat.max_comm _ _
  have f1 := C94_found_partial a b ga gb h0 h1
  have f2 := C94_found_partial b a gb ga h1 h0
  have key : (resultLay a b).size = max a.size b.size ↔ (resultLay b a).size = max b.size a.size := by
    rw [f1, f2, room_comm b a]
    rcases Nat.lt_trichotomy a.size b.size with h | h | h
    · simp only [Nat.not_le.2 h, if_false, Nat.le_of_lt h, if_true]
      exact ⟨fun ⟨k, x, y, z⟩ => ⟨k, x, y, z.symm⟩, fun ⟨k, x, y, z⟩ => ⟨k, x, y, z.symm⟩⟩
    · have hroom : room a b = a.size := by
        have hd : max a.align b.align ∣ a.size := by
          rcases Nat.le_total a.align b.align with hl | hl
          · rw [Nat.max_eq_right hl, h]; exact hb
          · rw [Nat.max_eq_left hl]; exact ha
        rw [← room_eq ga gb]
        unfold unionSize nextMul
        have : max (a.size + 0) (b.size + 0) = a.size := by omega
        rw [this, if_pos (Nat.mod_eq_zero_of_dvd hd)]
      simp only [Nat.le_of_eq h, Nat.le_of_eq h.symm, if_true, hroom]
      have hk : ∀ {c k n : Nat}, 0 < c → k * c + n ≤ n → k = 0 := by
        intro c k n hc hx
        have : k * c = 0 := by omega
        rcases Nat.mul_eq_zero.1 this with h | h <;> omega
      constructor
      · rintro ⟨k, _, h2, h3⟩
        have : k = 0 := hk gb.align.pos (by rw [h] at h2; exact h2)
        subst this
        refine ⟨0, by omega, by omega, ?_⟩
        rw [Nat.zero_mul] at h3 ⊢; exact h3.symm
      · rintro ⟨k, _, h2, h3⟩
        have : k = 0 := hk ga.align.pos h2
        subst this
        refine ⟨0, by omega, by omega, ?_⟩
        rw [Nat.zero_mul] at h3 ⊢; exact h3.symm
    · simp only [Nat.not_le.2 h, if_false, Nat.le_of_lt h, if_true]
      exact ⟨fun ⟨k, x, y, z⟩ => ⟨k, x, y, z.symm⟩, fun ⟨k, x, y, z⟩ => ⟨k, x, y, z.symm⟩⟩
  have ht : ∀ x y : Lay, x.Good → y.Good → (resultLay x y).size = max x.size y.size ∨ (resultLay x y).size = max x.align y.align + max x.size y.size := by
    intro x y gx gy
    have := Verif.Props.Sum.C13_size x y gx gy
    cases hc : (provider x y).det.isNicheTrick with
    | true => exact .inl (this.2.1 hc)
    | false => exact .inr (this.2.2 hc)
  rcases ht a b ga gb with h | h <;> rcases ht b a gb ga with h' | h'
  · omega
  · have := key.1 h; omega
  · have := key.2 h'; omega
  · omega

/-! ### Examples and what does not hold -/

theorem good_u8 : Ty.u8.lay.Good := ty_good (t := Ty.u8) ⟨⟨0, rfl⟩, trivial, by simp [Fv.offsets]⟩
theorem good_u16 : Ty.u16.lay.Good := ty_good (t := Ty.u16) ⟨⟨1, rfl⟩, trivial, by simp [Fv.offsets]⟩
theorem good_bool : Ty.bool.lay.Good := ty_good (t := Ty.bool) ⟨⟨0, rfl⟩, by show (2 : Byte) ≤ 255; decide, by simp [Fv.offsets]⟩

/-- `Result<bool, u16>` and `Result<u16, bool>`. -/
example : (resultLay Ty.bool.lay Ty.u16.lay).size = (resultLay Ty.u16.lay Ty.bool.lay).size :=
  C94_symmetric _ _ good_bool good_u16 (by decide) (by decide) (by decide) (by decide)

/-- `Result<(bool, u8), u8>` takes two bytes: with the `u8` in the second byte, the forbidden values of `bool` tell them apart. -/
example : (resultLay (Ty.tuple2 .bool .u8).lay Ty.u8.lay).size = 2 ∧ errOffset (Ty.tuple2 .bool .u8).lay Ty.u8.lay = 1 := by decide +kernel
example : Tells 2 (Ty.tuple2 .bool .u8).lay 0 Ty.u8.lay 1 := by
  refine .inl ⟨[0], ?_, ?_⟩
  · have : (Ty.tuple2 .bool .u8).lay.fv = .or (.range 2 255 0) .none := by decide +kernel
    rw [this]; exact .left _ _ _ (.range ..)
  · intro o ho b hb
    rw [List.mem_singleton.1 ho]
    exact ⟨by omega, hb, .inl (by omega)⟩
/-- `Result<u8, u8>` takes two. -/
example : (resultLay Ty.u8.lay Ty.u8.lay).size = 2 ∧ ¬ ∃ k < 8, k * 1 + 1 ≤ room Ty.u8.lay Ty.u8.lay ∧ Tells (room Ty.u8.lay Ty.u8.lay) Ty.u8.lay 0 Ty.u8.lay (k * 1) := by
  refine ⟨by decide +kernel, fun h => ?_⟩
  have := (C94_found_partial Ty.u8.lay Ty.u8.lay good_u8 good_u8 (by decide) (by decide)).2 (by
    obtain ⟨k, h1, h2, h3⟩ := h
    exact ⟨k, h1, by rw [if_pos (Nat.le_refl _)]; exact ⟨h2, h3⟩⟩)
  revert this; decide +kernel

/-- `struct { [u8; 9], bool, [u8; 10] }`. -/
def long : Ty := .struct (.fieldPair (.fieldPair (.array .u8 9) .bool) (.array .u8 10))

/-- `Result<long, [u8; 10]>` has a byte for its tag, although with the array in the last ten bytes the `bool` would tell the variants
apart: only eight places are tried. -/
theorem C94_budget_refuted : (resultLay long.lay (Ty.array .u8 10).lay).size = 21 ∧ max long.lay.size (Ty.array .u8 10).lay.size = 20 ∧
    Tells 20 long.lay 0 (Ty.array .u8 10).lay 10 := by
  refine ⟨by decide +kernel, by decide +kernel, .inl ⟨[9], ?_, ?_⟩⟩
  · have : long.lay.fv = .or (.or .none (.range 2 255 9)) .none := by decide +kernel
    rw [this]; exact .left _ _ _ (.right _ _ _ (.range ..))
  · intro o ho b hb
    rw [List.mem_singleton.1 ho]
    exact ⟨by omega, hb, .inl (by omega)⟩

/-- `Option<(bool, u8)>` takes two bytes, `Option<(u8, bool)>` three: of the forbidden values of a struct only those of its first field are
looked at. -/
theorem C94_option_refuted : (Ty.option (.tuple2 .bool .u8)).lay.size = 2 ∧ (Ty.option (.tuple2 .u8 .bool)).lay.size = 3 ∧
    Lists (Ty.tuple2 .u8 .bool).lay.fv [1] := by
  refine ⟨by decide +kernel, by decide +kernel, ?_⟩
  have : (Ty.tuple2 .u8 .bool).lay.fv = .or .none (.range 2 255 1) := by decide +kernel
  rw [this]; exact .right _ _ _ (.range ..)
example : Ty.bool.lay.fv.selectOne ≠ [] ∧ Ty.u16.lay.fv = .none := by decide +kernel

/-- `Option<Option<bool>>` takes two bytes, although `Option<bool>` is one byte in which at most three of the 256 values occur: a result declares no
forbidden value. -/
theorem C94_nested_refuted : (Ty.option .bool).lay.size = 1 ∧ (Ty.option (.option .bool)).lay.size = 2 ∧
    ((Ty.option .bool).lay.fv = .none ∧ (Ty.option .bool).lay.ub = []) ∧
    ∀ v m, HasTy (Ty.option .bool) v → Rep (Ty.option .bool) v m → m 0 = 0 ∨ m 0 = 1 ∨ m 0 = 2 := by
  refine ⟨by decide +kernel, by decide +kernel, by decide +kernel, ?_⟩
  have hd : provider Ty.bool.lay Ty.unit.lay = ⟨0, 0, .valueIsErr 0 2 .endd, []⟩ := by decide +kernel
  have ho : okOffset Ty.bool.lay Ty.unit.lay = 0 := by decide +kernel
  intro v m _ hr
  cases v with
  | ok v =>
    cases v with
    | raw bs =>
      obtain ⟨_, _, _, h⟩ := hr
      have h : ¬ ((2 : Byte) ≤ m 0 ∧ m 0 ≤ 255) := by
        have e : okPtr Ty.bool.lay Ty.unit.lay m 0 = m 0 := by simp [okPtr, Mem.at, ho]
        rw [← e]; exact h
      have key : ∀ n : Fin 256, ¬ ((2 : Byte) ≤ BitVec.ofNat 8 n.val ∧ BitVec.ofNat 8 n.val ≤ (255 : Byte)) →
          BitVec.ofNat 8 n.val = 0 ∨ BitVec.ofNat 8 n.val = 1 ∨ BitVec.ofNat 8 n.val = (2 : Byte) := by decide +kernel
      have := key ⟨(m 0).toNat, (m 0).isLt⟩
      simp only [BitVec.ofNat_toNat, BitVec.setWidth_eq] at this
      exact this h
    | _ => exact hr.2.elim
  | err v =>
    have h : isOk Ty.bool.lay Ty.unit.lay m = false := hr.1
    simp [isOk, hd, Det.isOk] at h
    exact .inr (.inr h)
  | _ => exact hr.elim

end Verif.Props.Found
