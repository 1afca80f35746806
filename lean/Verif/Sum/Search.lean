import Verif.Sum.Det

/-! Soundness of the search for a determinant. -/
namespace Verif.Sum
open Verif.Layout

/-- What the search returns: a niche at no cost inside the union, or one more byte. -/
inductive InnerOk (ok err : Lay) (usz : Nat) (p : Inner) : Prop where
  | niche (lay : p.det.lay = Lay.unit) (self : ∀ b, p.det.self b = none) (trick : p.det.isNicheTrick = true)
      (sound : Sound ok err 0 p.errShift p.det p.exported usz) (al : p.errShift % err.align = 0)
  | bit (eq : p = ⟨0, .bit, []⟩)

theorem Fv.shift_zero (f : Fv) : f.shift 0 = f := by
  induction f <;> simp_all [Fv.shift]

theorem bit_sound {ok err : Lay} {errOff usz : Nat} {U : Mask} {o : Nat} {v : Byte} {tail : Mask}
    (hU : U = (o, v) :: tail) (good : U.Good 0 usz)
    (uOk : ∀ i b, i < ok.size → b < 8 → U.Unused i b → ok.ub.Unused i b)
    (uErr : ∀ i b, i < err.size → b < 8 → U.Unused (errOff + i) b → err.ub.Unused i b)
    (okFits : ok.size ≤ usz) (errFits : errOff + err.size ≤ usz) :
    Sound ok err 0 errOff (.bitIsErr o (Mask.lowBit v)) (Mask.extractBit ((o, v) :: tail)) usz := by
  subst hU
  have hv := good.top o v (by simp)
  have all : ∀ b, b < 8 → (Mask.lowBit v = 1 ∨ (Mask.lowBit v).getLsbD b = true) →
      Mask.Unused ((o, v) :: tail) o b := by
    intro b hb h
    refine ⟨v, by simp, ?_⟩
    rcases h with h | h
    · rw [hv.2 (lowBit_eq_one v h)]; exact getLsbD_255 ⟨b, hb⟩
    · exact lowBit_bits v ⟨b, hb⟩ h
  have sub : ∀ i b, b < 8 → (Mask.extractBit ((o, v) :: tail)).Unused i b → Mask.Unused ((o, v) :: tail) i b :=
    fun i b hb h => (Mask.unused_extractBit hb good.nodup h).1
  refine sound_bitIsErr (lowBit_ne_zero v hv.1) (good.range o v (by simp)).2 ?_ ?_ ?_ ?_ ?_ good.extractBit
    (by omega) errFits
  · intro i b ho hi hb h
    exact uOk i b hi hb (by have := all b hb h; rwa [ho, Nat.zero_add] at this ⊢)
  · rintro i b rfl hi hb h
    exact uErr i b hi hb (all b hb h)
  · intro b hb h hu
    exact (Mask.unused_extractBit hb good.nodup hu).2 ⟨rfl, h⟩
  · intro i b hi hb h
    rw [Nat.zero_add] at h
    exact uOk i b hi hb (sub _ _ hb h)
  · intro i b hi hb h
    exact uErr i b hi hb (sub _ _ hb h)

theorem withUnit_ok {ok err : Lay} (g : ok.Good) (h0 : err.size = 0) {usz : Nat} (hsz : ok.size ≤ usz) :
    InnerOk ok err usz (withUnit ok.fv.selectOne ok.ub) := by
  cases hf : ok.fv.selectOne with
  | cons e tail =>
    obtain ⟨o, v⟩ := e
    have hp : Fv.Picks ok.fv ok.fv.selectOne := Fv.selectOne_picks g.fvWF (by rw [hf]; simp)
    rw [hf] at hp
    refine .niche (into_lay _) (into_self _) rfl ?_ (Nat.zero_mod _)
    refine sound_valueIsErr (by rw [Fv.shift_zero]; exact hp) ?_ ?_ ?_ ?_ ?_ (g.ub.mono (Nat.le_refl _) hsz) (by omega)
      (show (0 : Nat) + err.size ≤ usz by omega)
    · intro o v h; have := g.fvRange o (hp.sub o v h); omega
    · intro o v h i b _ hi; omega
    · intro o v h w; exact g.fvUsed o (hp.sub o v h) w
    · intro i b hi hb h; rwa [Nat.zero_add] at h
    · intro i b hi; omega
  | nil =>
    cases hu : ok.ub with
    | nil => exact .bit rfl
    | cons e tail =>
      obtain ⟨o, v⟩ := e
      refine .niche rfl (fun _ => rfl) rfl ?_ (Nat.zero_mod _)
      exact bit_sound hu (g.ub.mono (Nat.le_refl _) hsz) (fun i b _ _ h => h) (fun i b hi => by omega) hsz
        (show (0 : Nat) + err.size ≤ usz by omega)

/-- The mask of a member of the union. -/
structure MemberMask (U : Mask) (off usz : Nat) (t : Lay) : Prop where
  good : U.Good 0 usz
  mem : ∀ i w, i < t.size → (off + i, w) ∈ U → (i, w) ∈ t.ub

theorem MemberMask.unused {U : Mask} {off usz : Nat} {t : Lay} (h : MemberMask U off usz t) {i b : Nat}
    (hi : i < t.size) (hu : U.Unused (off + i) b) : t.ub.Unused i b := by
  obtain ⟨v, hm, hb⟩ := hu
  exact ⟨v, h.mem i v hi hm, hb⟩

theorem errUb_member {t : Lay} (g : t.Good) {off usz : Nat} (h : t.size + off ≤ usz) :
    MemberMask (errUnusedBits usz t.ub t.size off) off usz t := by
  constructor
  · unfold errUnusedBits
    rw [Mask.bitOr_eq, Mask.bitOr_eq]
    have h1 := g.ub.shift off
    rw [Nat.zero_add] at h1
    have h2 := Mask.Good.padAt (usz - (t.size + off)) (t.size + off)
    have h3 := h1.append h2 (by omega) (by omega)
    exact ((Mask.Good.pad off).append h3 (by omega) (by omega)).mono (Nat.le_refl _) (by omega)
  · intro i w hi hm
    unfold errUnusedBits at hm
    rw [Mask.bitOr_eq, Mask.bitOr_eq, List.mem_append, List.mem_append] at hm
    rcases hm with hm | hm | hm
    · have := (Mask.mem_padMask.1 hm).1; omega
    · obtain ⟨j, hj, hm⟩ := Mask.mem_shift.1 hm
      have : i = j := by omega
      subst this; exact hm
    · obtain ⟨j, hj, hm⟩ := Mask.mem_shift.1 hm
      omega

theorem okUb_member {ok err : Lay} (g : ok.Good) (h : ok.size ≤ unionSize ok err 0 0) :
    MemberMask (unionMemberUnusedBits ok err 0) 0 (unionSize ok err 0 0) ok := by
  have : unionMemberUnusedBits ok err 0 = errUnusedBits (unionSize ok err 0 0) ok.ub ok.size 0 := by
    simp [unionMemberUnusedBits, errUnusedBits, Mask.bitOr_eq, padMask]
  rw [this]
  exact errUb_member g h

theorem search_ok {ok err : Lay} {usz : Nat} {okUb : Mask} (gok : ok.Good) (gerr : err.Good)
    (mok : MemberMask okUb 0 usz ok) (hsz : ok.size ≤ usz) (budget off : Nat) (hoff : err.size + off ≤ usz)
    (hal : off % err.align = 0) :
    InnerOk ok err usz (search usz ok.fv okUb err.fv err.ub err.size err.align budget off) := by
  induction budget generalizing off with
  | zero => exact .bit rfl
  | succ n ih =>
    have merr := errUb_member gerr hoff
    have hEgood : (okUb.bitAnd (errUnusedBits usz err.ub err.size off)).Good 0 usz := mok.good.bitAnd merr.good
    have expOk : ∀ i b, i < ok.size → b < 8 →
        (okUb.bitAnd (errUnusedBits usz err.ub err.size off)).Unused (0 + i) b → ok.ub.Unused i b :=
      fun i b hi hb h => mok.unused hi (Mask.unused_bitAnd h).1
    have expErr : ∀ i b, i < err.size → b < 8 →
        (okUb.bitAnd (errUnusedBits usz err.ub err.size off)).Unused (off + i) b → err.ub.Unused i b :=
      fun i b hi hb h => merr.unused hi (Mask.unused_bitAnd h).2
    unfold search
    dsimp only
    cases h1 : ((err.fv.shift off).selectFrom okUb).resolve with
    | cons e tail =>
      obtain ⟨o, v⟩ := e
      have hp := Fv.selectFrom_picks (k := okUb) (Fv.wf_shift (k := off) gerr.fvWF) (by rw [h1]; simp)
      rw [h1] at hp
      obtain ⟨hp, hfree⟩ := hp
      dsimp only
      refine .niche (into_lay ((o, v) :: tail)) (fun b => into_self ((o, v) :: tail) (!b)) rfl ?_ hal
      refine Sound.swap (sound_valueIsErr hp ?_ ?_ ?_ expErr expOk hEgood (show off + _ ≤ _ by omega) (by omega))
      · intro o v h
        have := hp.sub o v h
        rw [Fv.offsets_shift, List.mem_map] at this
        obtain ⟨p, hp, rfl⟩ := this
        have := gerr.fvRange p hp; omega
      · rintro o v h i b rfl hi hb
        exact mok.unused hi (Mask.unused_of_free (hfree _ _ h) hb)
      · intro o v h w hw
        have := hp.sub o v h
        rw [Fv.offsets_shift, List.mem_map] at this
        obtain ⟨p, hp, rfl⟩ := this
        obtain ⟨w', _, rfl, hne⟩ := Mask.mem_bitAnd hw
        have hm := Mask.byteAt_mem (Mask.and_ne_zero_right hne)
        rw [Nat.add_comm p off] at hm
        exact gerr.fvUsed p hp _ (merr.mem p _ (gerr.fvRange p hp) hm)
    | nil =>
      cases h2 : (ok.fv.selectFrom (errUnusedBits usz err.ub err.size off)).resolve with
      | cons e tail =>
        obtain ⟨o, v⟩ := e
        have hp := Fv.selectFrom_picks (k := errUnusedBits usz err.ub err.size off) gok.fvWF (by rw [h2]; simp)
        rw [h2] at hp
        obtain ⟨hp, hfree⟩ := hp
        dsimp only
        refine .niche (into_lay ((o, v) :: tail)) (fun b => into_self ((o, v) :: tail) b) rfl ?_ hal
        refine sound_valueIsErr (by rw [Fv.shift_zero]; exact hp) ?_ ?_ ?_ expOk expErr hEgood (by omega) (show off + _ ≤ _ by omega)
        · intro o v h
          have := gok.fvRange o (hp.sub o v h); omega
        · rintro o v h i b rfl hi hb
          exact merr.unused hi (Mask.unused_of_free (hfree _ _ h) hb)
        · intro o v h w hw
          obtain ⟨w', hw', _, hne⟩ := Mask.mem_bitAnd hw
          exact gok.fvUsed o (hp.sub o v h) w' (mok.mem o w' (gok.fvRange o (hp.sub o v h)) (by rwa [Nat.zero_add]))
      | nil =>
        cases h3 : okUb.bitAnd (errUnusedBits usz err.ub err.size off) with
        | cons e tail =>
          obtain ⟨o, v⟩ := e
          dsimp only
          refine .niche rfl (fun _ => rfl) rfl ?_ hal
          exact bit_sound h3 hEgood (fun i b hi hb h => expOk i b hi hb (by rwa [Nat.zero_add])) expErr hsz (show off + _ ≤ _ by omega)
        | nil =>
          simp only
          split
          · refine ih _ (by omega) ?_
            rw [Nat.add_mod, hal]; simp
          · exact .bit rfl

theorem inner_ok {ok err : Lay} (gok : ok.Good) (gerr : err.Good) (h : err.size ≤ ok.size) :
    InnerOk ok err (unionSize ok err 0 0) (inner ok err) := by
  have hu : ok.size ≤ unionSize ok err 0 0 := by
    have := le_nextMul (max (ok.size + 0) (err.size + 0)) (max ok.align err.align)
    unfold unionSize; omega
  unfold inner
  split
  · rename_i h0
    exact withUnit_ok gok h0 hu
  · exact search_ok gok gerr (okUb_member gok hu) hu 8 0 (by omega) (Nat.zero_mod _)

/-- What `Ok::DeterminantProvider` guarantees about the memory of the union. -/
inductive ProvOk (ok err : Lay) (usz : Nat) (p : Prov) : Prop where
  | niche (lay : p.det.lay = Lay.unit) (self : ∀ b, p.det.self b = none) (trick : p.det.isNicheTrick = true)
      (sound : Sound ok err p.okShift p.errShift p.det p.exported usz)
      (alOk : p.okShift % ok.align = 0) (alErr : p.errShift % err.align = 0)
  | bit (ok : p.okShift = 0) (err : p.errShift = 0) (det : p.det = .bit ∨ p.det = .not .bit) (exp : p.exported = [])

theorem unionSize_comm (ok err : Lay) : unionSize ok err 0 0 = unionSize err ok 0 0 := by
  unfold unionSize
  rw [Nat.max_comm (ok.size + 0), Nat.max_comm ok.align]

theorem provider_ok {ok err : Lay} (gok : ok.Good) (gerr : err.Good) :
    ProvOk ok err (unionSize ok err 0 0) (provider ok err) := by
  unfold provider
  split
  · rename_i h
    cases inner_ok gok gerr h with
    | niche lay self trick sound al => exact .niche lay self trick sound (Nat.zero_mod _) al
    | bit eq => rw [eq]; exact .bit rfl rfl (.inl rfl) rfl
  · rename_i h
    rw [unionSize_comm]
    cases inner_ok gerr gok (by omega) with
    | niche lay self trick sound al =>
      exact .niche lay (fun b => self (!b)) trick sound.swap al (Nat.zero_mod _)
    | bit eq => rw [eq]; exact .bit rfl rfl (.inr rfl) rfl

end Verif.Sum
