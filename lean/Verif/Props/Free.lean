import Verif.Sync.Free
/-! C26, continued: with weak handles, and for the memory. -/
namespace Verif.Props.Free
open Verif.Sync.Order (Clock join upd Ord)
open Verif.Sync.Free

structure Inv (s : St) : Prop where
  cs : s.strong = s.owns.length
  cw : s.weak = s.ownw.length + (if s.destroyed then 0 else 1)
  live : s.destroyed = true ↔ s.owns = []
  gone : s.freed = true → s.destroyed = true ∧ s.ownw = []
  /-- accesses are known to the thread of a strong handle, or were before a drop of one -/
  A : s.destroyed = false → ∀ u, s.acc u ≤ s.dropsS u ∨ ∃ v, v ∈ s.owns ∧ s.acc u ≤ s.clk v u
  /-- uses are known to the thread of a handle, or were before a drop of one -/
  U : s.freed = false → ∀ u, s.use u ≤ s.dropsW u ∨ (s.destroyed = false ∧ s.use u ≤ s.dropsS u) ∨ ∃ v, (v ∈ s.owns ∨ v ∈ s.ownw) ∧ s.use u ≤ s.clk v u

theorem inv_new : Inv St.new := by
  refine ⟨rfl, rfl, by simp [St.new], by simp [St.new], ?_, ?_⟩ <;> intro _ u <;> exact Or.inl (Nat.le_refl _)

theorem upd_same {α : Type} (f : Nat → α) (t : Nat) (x : α) : upd f t x t = x := by simp [upd]
theorem upd_other {α : Type} (f : Nat → α) (t u : Nat) (x : α) (h : u ≠ t) : upd f t x u = f u := by simp [upd, h]
theorem le_join_left (a b : Clock) (u : Nat) : a u ≤ join a b u := Nat.le_max_left _ _
theorem le_join_right (a b : Clock) (u : Nat) : b u ≤ join a b u := Nat.le_max_right _ _

theorem le_upd_join (clk : Nat → Clock) (t : Nat) (c : Clock) (v u : Nat) : clk v u ≤ upd clk t (join (clk t) c) v u := by
  by_cases h : v = t
  · subst h; rw [upd_same]; exact le_join_left _ _ _
  · rw [upd_other _ _ _ _ h]; exact Nat.le_refl _

/-- Knowing more keeps the invariant. -/
theorem inv_clk {s : St} (hi : Inv s) (c : Nat → Clock) (r r' : Clock) (h : ∀ v u, s.clk v u ≤ c v u) : Inv { s with clk := c, relS := r, relW := r' } := by
  refine ⟨hi.cs, hi.cw, hi.live, hi.gone, fun hd u => ?_, fun hf u => ?_⟩
  · exact (hi.A hd u).imp_right fun ⟨v, h1, h2⟩ => ⟨v, h1, Nat.le_trans h2 (h v u)⟩
  · exact (hi.U hf u).imp_right fun h' => h'.imp_right fun ⟨v, h1, h2⟩ => ⟨v, h1, Nat.le_trans h2 (h v u)⟩

theorem inv_rmwS {s : St} (hi : Inv s) (o : Ord) (t : Nat) : Inv (rmwS o s t) := by
  cases o with
  | relaxed => exact hi
  | acqRel => exact inv_clk hi _ _ s.relW (le_upd_join s.clk t s.relS)
theorem inv_rmwW {s : St} (hi : Inv s) (o : Ord) (t : Nat) : Inv (rmwW o s t) := by
  cases o with
  | relaxed => exact hi
  | acqRel => exact inv_clk hi _ s.relS _ (le_upd_join s.clk t s.relW)
theorem inv_loadS {s : St} (hi : Inv s) (o : Ord) (t : Nat) : Inv (loadS o s t) := by
  cases o with
  | relaxed => exact hi
  | acqRel => exact inv_clk hi _ s.relS s.relW (le_upd_join s.clk t s.relS)
theorem inv_learn {s : St} (hi : Inv s) (t u : Nat) : Inv (learn s t u) :=
  inv_clk hi _ s.relS s.relW (le_upd_join s.clk u (s.clk t))

theorem tick_le (s : St) (t : Nat) (b : Bool) (v u : Nat) : s.clk v u ≤ (tick s t b).clk v u := by
  simp only [tick]
  by_cases h : v = t
  · subst h
    rw [upd_same]
    by_cases hu : u = v
    · subst hu; rw [upd_same]; omega
    · rw [upd_other _ _ _ _ hu]; exact Nat.le_refl _
  · rw [upd_other _ _ _ _ h]; exact Nat.le_refl _

theorem inv_tick {s : St} (hi : Inv s) (t : Nat) (b : Bool) (h : t ∈ s.owns ∨ (b = false ∧ t ∈ s.ownw)) : Inv (tick s t b) := by
  have own : (tick s t b).clk t t = s.clk t t + 1 := by simp [tick, upd]
  refine ⟨hi.cs, hi.cw, hi.live, hi.gone, fun hd u => ?_, fun hf u => ?_⟩
  · by_cases hb : b = true ∧ u = t
    · obtain ⟨rfl, rfl⟩ := hb
      refine Or.inr ⟨u, h.resolve_right (by simp), ?_⟩
      rw [own]; simp [tick, upd]
    · have : (tick s t b).acc u = s.acc u := by
        simp only [tick]
        cases b with
        | true => simp only [true_and] at hb; simp [upd, hb]
        | false => rfl
      rw [this]
      exact (hi.A hd u).imp_right fun ⟨v, h1, h2⟩ => ⟨v, h1, Nat.le_trans h2 (tick_le s t b v u)⟩
  · by_cases hu : u = t
    · subst hu
      refine Or.inr (Or.inr ⟨u, h.imp_right And.right, ?_⟩)
      rw [own]; simp [tick, upd]
    · have : (tick s t b).use u = s.use u := by simp [tick, upd, hu]
      rw [this]
      exact (hi.U hf u).imp_right fun h' => h'.imp_right fun ⟨v, h1, h2⟩ => ⟨v, h1, Nat.le_trans h2 (tick_le s t b v u)⟩

theorem inv_addS {s : St} (hi : Inv s) (t : Nat) (h : s.owns ≠ []) : Inv { s with strong := s.strong + 1, owns := t :: s.owns } := by
  have hd : s.destroyed = false := by
    cases hh : s.destroyed with
    | false => rfl
    | true => exact absurd (hi.live.1 hh) h
  refine ⟨by simp [hi.cs], hi.cw, ?_, hi.gone, fun hd u => ?_, fun hf u => ?_⟩
  · simp [hd]
  · exact (hi.A hd u).imp_right fun ⟨v, h1, h2⟩ => ⟨v, List.mem_cons_of_mem _ h1, h2⟩
  · exact (hi.U hf u).imp_right fun h' => h'.imp_right fun ⟨v, h1, h2⟩ => ⟨v, h1.imp_left (List.mem_cons_of_mem _), h2⟩

theorem inv_addW {s : St} (hi : Inv s) (t : Nat) (hne : s.owns ≠ [] ∨ s.ownw ≠ []) : Inv { s with weak := s.weak + 1, ownw := t :: s.ownw } := by
  refine ⟨hi.cs, ?_, hi.live, ?_, hi.A, fun hf u => ?_⟩
  · have := hi.cw
    simp only [List.length_cons]; omega
  · intro hf
    obtain ⟨h1, h2⟩ := hi.gone hf
    rcases hne with h | h
    · exact absurd (hi.live.1 h1) h
    · exact absurd h2 h
  · exact (hi.U hf u).imp_right fun h' => h'.imp_right fun ⟨v, h1, h2⟩ => ⟨v, h1.imp_right (List.mem_cons_of_mem _), h2⟩

theorem mem_erase_or {l : List Nat} {t v : Nat} (h : v ∈ l) : v ∈ l.erase t ∨ v = t := by
  by_cases hv : v = t
  · exact Or.inr hv
  · exact Or.inl ((List.mem_erase_of_ne hv).2 h)

/-- What was dropped before comes before: what the last drop must ensure. -/
def Joined (s : St) : Want → Prop
  | .value t => ∀ u, s.dropsS u ≤ s.clk t u
  | .memory t => ∀ u, s.dropsW u ≤ s.clk t u

/-- A strong handle is dropped, by a thread whose clock is at least `c`, which is what `d` records. -/
theorem inv_drop {s : St} (hi : Inv s) (t : Nat) (ht : t ∈ s.owns) (d : Clock)
    (hown : ∀ u, s.acc u ≤ s.dropsS u ∨ (∃ v, v ∈ s.owns ∧ v ≠ t ∧ s.acc u ≤ s.clk v u) ∨ s.acc u ≤ d u)
    (huse : s.freed = false → ∀ u, s.use u ≤ s.dropsW u ∨ s.use u ≤ s.dropsS u ∨ (∃ v, (v ∈ s.owns ∨ v ∈ s.ownw) ∧ v ≠ t ∧ s.use u ≤ s.clk v u) ∨ s.use u ≤ d u)
    (hd : ∀ u, s.dropsS u ≤ d u) (s' : St) (w : Option Want)
    (h : (if s.strong - 1 = 0 then some ({ s with strong := s.strong - 1, owns := s.owns.erase t, dropsS := d, destroyed := true, ownw := t :: s.ownw }, some (Want.value t))
      else some ({ s with strong := s.strong - 1, owns := s.owns.erase t, dropsS := d }, none)) = some (s', w))
    (hj : ∀ x, w = some x → Joined s' x) : Inv s' ∧ ∀ x, w = some x → After s' x := by
  have hlen := List.length_erase_of_mem ht
  have hpos : 0 < s.owns.length := List.length_pos_of_mem ht
  have hdes : s.destroyed = false := by
    cases hh : s.destroyed with
    | false => rfl
    | true => rw [hi.live.1 hh] at ht; cases ht
  have hcs := hi.cs
  have hcw := hi.cw
  rw [hdes] at hcw
  have hnf : s.freed = false := by
    cases hh : s.freed with
    | false => rfl
    | true => rw [(hi.gone hh).1] at hdes; cases hdes
  split at h
  · rename_i h0
    cases h
    have hj' : ∀ u, d u ≤ s.clk t u := hj _ rfl
    have hnil : s.owns.erase t = [] := List.eq_nil_of_length_eq_zero (by omega)
    have only : ∀ v, v ∈ s.owns → v = t := by
      intro v hv
      rcases mem_erase_or (t := t) hv with h | h
      · rw [hnil] at h; cases h
      · exact h
    refine ⟨⟨?_, ?_, ?_, ?_, ?_, ?_⟩, ?_⟩
    · simp only; omega
    · simp only [List.length_cons, if_true]; simp at hcw; omega
    · simp [hnil]
    · intro h; rw [hnf] at h; cases h
    · intro h; cases h
    · intro hf u
      rcases huse hf u with h | h | ⟨v, h1, h2, h3⟩ | h
      · exact Or.inl h
      · exact Or.inr (Or.inr ⟨t, Or.inr (List.mem_cons_self ..), Nat.le_trans h (Nat.le_trans (hd u) (hj' u))⟩)
      · rcases h1 with h1 | h1
        · exact absurd (only v h1) h2
        · exact Or.inr (Or.inr ⟨v, Or.inr (List.mem_cons_of_mem _ h1), h3⟩)
      · exact Or.inr (Or.inr ⟨t, Or.inr (List.mem_cons_self ..), Nat.le_trans h (hj' u)⟩)
    · intro x hx
      cases hx
      intro u
      rcases hown u with h | ⟨v, h1, h2, _⟩ | h
      · exact Nat.le_trans h (Nat.le_trans (hd u) (hj' u))
      · exact absurd (only v h1) h2
      · exact Nat.le_trans h (hj' u)
  · rename_i h0
    cases h
    refine ⟨⟨?_, ?_, ?_, fun h => (by rw [hnf] at h; cases h), ?_, ?_⟩, fun x hx => by cases hx⟩
    · simp only; omega
    · simp only [hdes]; exact hcw
    · simp only [hdes, Bool.false_eq_true, false_iff]
      intro hn
      rw [hn] at hlen
      simp at hlen; omega
    · intro _ u
      rcases hown u with h | ⟨v, h1, h2, h3⟩ | h
      · exact Or.inl (Nat.le_trans h (hd u))
      · exact Or.inr ⟨v, (List.mem_erase_of_ne h2).2 h1, h3⟩
      · exact Or.inl h
    · intro hf u
      rcases huse hf u with h | h | ⟨v, h1, h2, h3⟩ | h
      · exact Or.inl h
      · exact Or.inr (Or.inl ⟨hdes, Nat.le_trans h (hd u)⟩)
      · exact Or.inr (Or.inr ⟨v, h1.imp_left (List.mem_erase_of_ne h2).2, h3⟩)
      · exact Or.inr (Or.inl ⟨hdes, h⟩)

theorem rmwS_clk_other (o : Ord) (s : St) (t v : Nat) (h : v ≠ t) : (rmwS o s t).clk v = s.clk v := by
  cases o with
  | relaxed => rfl
  | acqRel => simp [rmwS, upd, h]
theorem rmwW_clk_other (o : Ord) (s : St) (t v : Nat) (h : v ≠ t) : (rmwW o s t).clk v = s.clk v := by
  cases o with
  | relaxed => rfl
  | acqRel => simp [rmwW, upd, h]
theorem rmwS_rest (o : Ord) (s : St) (t : Nat) : (rmwS o s t).strong = s.strong ∧ (rmwS o s t).owns = s.owns ∧ (rmwS o s t).ownw = s.ownw ∧ (rmwS o s t).dropsS = s.dropsS ∧
    (rmwS o s t).dropsW = s.dropsW ∧ (rmwS o s t).acc = s.acc ∧ (rmwS o s t).use = s.use ∧ (rmwS o s t).destroyed = s.destroyed ∧ (rmwS o s t).freed = s.freed ∧
    (rmwS o s t).weak = s.weak := by
  cases o <;> exact ⟨rfl, rfl, rfl, rfl, rfl, rfl, rfl, rfl, rfl, rfl⟩
theorem rmwW_rest (o : Ord) (s : St) (t : Nat) : (rmwW o s t).strong = s.strong ∧ (rmwW o s t).owns = s.owns ∧ (rmwW o s t).ownw = s.ownw ∧ (rmwW o s t).dropsS = s.dropsS ∧
    (rmwW o s t).dropsW = s.dropsW ∧ (rmwW o s t).acc = s.acc ∧ (rmwW o s t).use = s.use ∧ (rmwW o s t).destroyed = s.destroyed ∧ (rmwW o s t).freed = s.freed ∧
    (rmwW o s t).weak = s.weak := by
  cases o <;> exact ⟨rfl, rfl, rfl, rfl, rfl, rfl, rfl, rfl, rfl, rfl⟩
theorem rmwS_le (o : Ord) (s : St) (t v u : Nat) : s.clk v u ≤ (rmwS o s t).clk v u := by
  cases o with
  | relaxed => exact Nat.le_refl _
  | acqRel => exact le_upd_join s.clk t s.relS v u
theorem rmwW_le (o : Ord) (s : St) (t v u : Nat) : s.clk v u ≤ (rmwW o s t).clk v u := by
  cases o with
  | relaxed => exact Nat.le_refl _
  | acqRel => exact le_upd_join s.clk t s.relW v u

/-- One step: the invariant is kept and what must come after does, if the earlier drops do. -/
theorem inv_step (o : Ords) {s s' : St} {op : Op} {w : Option Want} (hi : Inv s) (h : step o s op = some (s', w)) (hj : ∀ x, w = some x → Joined s' x) :
    Inv s' ∧ ∀ x, w = some x → After s' x := by
  have none_ : ∀ s : St, ∀ x, (none : Option Want) = some x → After s x := fun _ _ h => by cases h
  cases op with
  | access t =>
    simp only [step] at h
    split at h
    · rename_i ht
      cases h
      exact ⟨inv_tick hi t true (Or.inl ht), none_ _⟩
    · cases h
  | clone t =>
    simp only [step] at h
    split at h
    · rename_i ht
      cases h
      refine ⟨inv_addS (inv_rmwS (inv_tick hi t false (Or.inl ht)) o.incr t) t ?_, none_ _⟩
      rw [(rmwS_rest o.incr (tick s t false) t).2.1]
      exact List.ne_nil_of_mem ht
    · cases h
  | downgrade t =>
    simp only [step] at h
    split at h
    · rename_i ht
      cases h
      exact ⟨inv_addW (inv_rmwW (inv_tick hi t false (Or.inl ht)) o.incr t) t (Or.inl (by rw [(rmwW_rest o.incr (tick s t false) t).2.1]; exact List.ne_nil_of_mem ht)), none_ _⟩
    · cases h
  | cloneW t =>
    simp only [step] at h
    split at h
    · rename_i ht
      cases h
      exact ⟨inv_addW (inv_rmwW (inv_tick hi t false (Or.inr ⟨rfl, ht⟩)) o.incr t) t (Or.inr (by rw [(rmwW_rest o.incr (tick s t false) t).2.2.1]; exact List.ne_nil_of_mem ht)), none_ _⟩
    · cases h
  | upgrade t =>
    simp only [step] at h
    split at h
    · rename_i ht
      have hr := inv_rmwS (inv_tick hi t false (Or.inr ⟨rfl, ht⟩)) o.upgrade t
      split at h
      · cases h
        exact ⟨hr, none_ _⟩
      · rename_i h0
        cases h
        refine ⟨inv_addS hr t ?_, none_ _⟩
        intro hn
        rw [hr.cs, hn] at h0
        exact h0 rfl
    · cases h
  | drop t =>
    simp only [step] at h
    split at h
    · rename_i ht
      have h1 := inv_tick hi t false (Or.inl ht)
      have hd : s.destroyed = false := by
        cases hh : s.destroyed with
        | false => rfl
        | true => rw [hi.live.1 hh] at ht; cases ht
      generalize hs1 : tick s t false = s1 at h h1
      have ht1 : t ∈ s1.owns := by rw [← hs1]; exact ht
      have hd1 : s1.destroyed = false := by rw [← hs1]; exact hd
      have hr := inv_rmwS h1 o.drop t
      have rest := rmwS_rest o.drop s1 t
      have hle := rmwS_le o.drop s1 t
      have hoth := rmwS_clk_other o.drop s1 t
      generalize hs2 : rmwS o.drop s1 t = s2 at h hr rest hle hoth
      obtain ⟨r1, r2, r3, r4, r5, r6, r7, r8, r9, r10⟩ := rest
      refine inv_drop hr t (by rw [r2]; exact ht1) (join s1.dropsS (s1.clk t)) ?_ ?_ ?_ s' w h hj
      · intro u
        rw [r6, r4, r2]
        rcases h1.A hd1 u with h | ⟨v, hv1, hv2⟩
        · exact Or.inl h
        · by_cases hv : v = t
          · subst hv; exact Or.inr (Or.inr (Nat.le_trans hv2 (le_join_right _ _ _)))
          · exact Or.inr (Or.inl ⟨v, hv1, hv, by rw [hoth v hv]; exact hv2⟩)
      · intro hf u
        rw [r7, r4, r2, r3, r5]
        rcases h1.U (r9 ▸ hf) u with h | ⟨_, h⟩ | ⟨v, hv1, hv2⟩
        · exact Or.inl h
        · exact Or.inr (Or.inl h)
        · by_cases hv : v = t
          · subst hv; exact Or.inr (Or.inr (Or.inr (Nat.le_trans hv2 (le_join_right _ _ _))))
          · exact Or.inr (Or.inr (Or.inl ⟨v, hv1, hv, by rw [hoth v hv]; exact hv2⟩))
      · intro u
        rw [r4]; exact le_join_left _ _ _
    · cases h
  | dropW t =>
    simp only [step] at h
    split at h
    · rename_i ht
      have h1 := inv_tick hi t false (Or.inr ⟨rfl, ht⟩)
      generalize hs1 : tick s t false = s1 at h h1
      have ht1 : t ∈ s1.ownw := by rw [← hs1]; exact ht
      have hr := inv_rmwW h1 o.dropW t
      have rest := rmwW_rest o.dropW s1 t
      have hle := rmwW_le o.dropW s1 t
      have hoth := rmwW_clk_other o.dropW s1 t
      generalize hs2 : rmwW o.dropW s1 t = s2 at h hr rest hle hoth
      obtain ⟨r1, r2, r3, r4, r5, r6, r7, r8, r9, r10⟩ := rest
      have ht2 : t ∈ s2.ownw := by rw [r3]; exact ht1
      have hlen := List.length_erase_of_mem ht2
      have hpos : 0 < s2.ownw.length := List.length_pos_of_mem ht2
      have hcw := hr.cw
      have cover : s2.freed = false → ∀ u, s2.use u ≤ join s1.dropsW (s1.clk t) u ∨ (s2.destroyed = false ∧ s2.use u ≤ s2.dropsS u) ∨
          ∃ v, (v ∈ s2.owns ∨ v ∈ s2.ownw.erase t) ∧ s2.use u ≤ s2.clk v u := by
        intro hf u
        rw [r7, r8, r4, r2, r3]
        rcases h1.U (r9 ▸ hf) u with h | h | ⟨v, hv1, hv2⟩
        · exact Or.inl (Nat.le_trans h (le_join_left _ _ _))
        · exact Or.inr (Or.inl h)
        · by_cases hv : v = t
          · subst hv; exact Or.inl (Nat.le_trans hv2 (le_join_right _ _ _))
          · exact Or.inr (Or.inr ⟨v, hv1.imp_right (List.mem_erase_of_ne hv).2, by rw [hoth v hv]; exact hv2⟩)
      split at h
      · rename_i h0
        cases h
        have hdes : s2.destroyed = true := by
          cases hh : s2.destroyed with
          | true => rfl
          | false => rw [hh] at hcw; simp at hcw; omega
        rw [hdes] at hcw
        simp only [if_true] at hcw
        have hnil : s2.ownw.erase t = [] := List.eq_nil_of_length_eq_zero (by omega)
        have hown := hr.live.1 hdes
        refine ⟨⟨hr.cs, ?_, hr.live, fun _ => ⟨hdes, hnil⟩, hr.A, fun h => by cases h⟩, ?_⟩
        · simp only [hdes, if_true, hnil, List.length_nil]; omega
        · intro x hx
          cases hx
          intro u
          have hf : s2.freed = false := by
            cases hh : s2.freed with
            | false => rfl
            | true => rw [(hr.gone hh).2] at ht2; cases ht2
          have hj' : ∀ u, join s1.dropsW (s1.clk t) u ≤ s2.clk t u := hj _ rfl
          rcases cover hf u with h | ⟨h, _⟩ | ⟨v, hv, _⟩
          · exact Nat.le_trans h (hj' u)
          · rw [hdes] at h; cases h
          · rw [hown, hnil] at hv; rcases hv with hv | hv <;> cases hv
      · rename_i h0
        cases h
        refine ⟨⟨hr.cs, ?_, hr.live, fun hh => (by rw [(hr.gone hh).2] at ht2; cases ht2), hr.A, cover⟩, none_ _⟩
        show s2.weak - 1 = (s2.ownw.erase t).length + (if s2.destroyed then 0 else 1)
        omega
    · cases h
  | write t =>
    simp only [step] at h
    split at h
    · rename_i hc
      obtain ⟨ht, h1, h2⟩ := hc
      cases h
      have hk := inv_loadS (inv_tick hi t true (Or.inl ht)) o.unique t
      refine ⟨hk, ?_⟩
      intro x hx
      cases hx
      intro u
      have hj' := hj _ rfl
      have hd : (loadS o.unique (tick s t true) t).destroyed = false := by
        cases hh : s.destroyed with
        | false => cases o.unique <;> exact hh
        | true => rw [hi.live.1 hh] at ht; cases ht
      rcases hk.A hd u with h | ⟨v, hv, h⟩
      · exact Nat.le_trans h (hj' u)
      · have : v = t := by
          have e : (loadS o.unique (tick s t true) t).owns = s.owns := by cases o.unique <;> rfl
          rw [e] at hv
          have hl : s.owns.length = 1 := by rw [← hi.cs]; exact h1
          obtain ⟨y, hy⟩ := List.length_eq_one_iff.1 hl
          rw [hy] at hv ht
          simp only [List.mem_singleton] at hv ht
          rw [hv, ht]
        subst this; exact h
    · cases h
  | sync t u =>
    simp only [step] at h
    cases h
    exact ⟨inv_learn hi t u, none_ _⟩
  | send t u =>
    simp only [step] at h
    split at h
    · rename_i ht
      cases h
      have hl := inv_learn hi t u
      have hk : ∀ x, s.clk t x ≤ (learn s t u).clk u x := by
        intro x; simp only [learn, upd_same]; exact le_join_right _ _ _
      have hlen := List.length_erase_of_mem ht
      have hpos : 0 < s.owns.length := List.length_pos_of_mem ht
      have hcs := hi.cs
      have hd : s.destroyed = false := by
        cases hh : s.destroyed with
        | false => rfl
        | true => rw [hi.live.1 hh] at ht; cases ht
      refine ⟨⟨?_, hi.cw, ?_, fun hh => (by rw [(hi.gone hh).1] at hd; cases hd), fun _ x => ?_, fun hf x => ?_⟩, none_ _⟩
      · simp only [List.length_cons]; show s.strong = _; omega
      · show s.destroyed = true ↔ _; simp [hd]
      · rcases hi.A hd x with h | ⟨v, hv, h⟩
        · exact Or.inl h
        · refine Or.inr ?_
          rcases mem_erase_or (t := t) hv with h' | rfl
          · exact ⟨v, List.mem_cons_of_mem _ h', Nat.le_trans h (le_upd_join s.clk u (s.clk t) v x)⟩
          · exact ⟨u, List.mem_cons_self .., Nat.le_trans h (hk x)⟩
      · rcases hi.U hf x with h | h | ⟨v, hv, h⟩
        · exact Or.inl h
        · exact Or.inr (Or.inl h)
        · refine Or.inr (Or.inr ?_)
          rcases hv with hv | hv
          · rcases mem_erase_or (t := t) hv with h' | rfl
            · exact ⟨v, Or.inl (List.mem_cons_of_mem _ h'), Nat.le_trans h (le_upd_join s.clk u (s.clk t) v x)⟩
            · exact ⟨u, Or.inl (List.mem_cons_self ..), Nat.le_trans h (hk x)⟩
          · exact ⟨v, Or.inr hv, Nat.le_trans h (le_upd_join s.clk u (s.clk t) v x)⟩
    · cases h
  | sendW t u =>
    simp only [step] at h
    split at h
    · rename_i ht
      cases h
      have hk : ∀ x, s.clk t x ≤ (learn s t u).clk u x := by
        intro x; simp only [learn, upd_same]; exact le_join_right _ _ _
      have hlen := List.length_erase_of_mem ht
      have hpos : 0 < s.ownw.length := List.length_pos_of_mem ht
      have hcw := hi.cw
      have hl := inv_learn hi t u
      refine ⟨⟨hi.cs, ?_, hi.live, fun hh => (by rw [(hi.gone hh).2] at ht; cases ht), hl.A, fun hf x => ?_⟩, none_ _⟩
      · simp only [List.length_cons]; show s.weak = _ + (if s.destroyed then 0 else 1); omega
      · rcases hi.U hf x with h | h | ⟨v, hv, h⟩
        · exact Or.inl h
        · exact Or.inr (Or.inl h)
        · refine Or.inr (Or.inr ?_)
          rcases hv with hv | hv
          · exact ⟨v, Or.inl hv, Nat.le_trans h (le_upd_join s.clk u (s.clk t) v x)⟩
          · rcases mem_erase_or (t := t) hv with h' | rfl
            · exact ⟨v, Or.inr (List.mem_cons_of_mem _ h'), Nat.le_trans h (le_upd_join s.clk u (s.clk t) v x)⟩
            · exact ⟨u, Or.inr (List.mem_cons_self ..), Nat.le_trans h (hk x)⟩
    · cases h

/-- What must come after does, for a history in which the drops before do. -/
def Ordered (o : Ords) (s : St) : List Op → Prop
  | [] => True
  | op :: ops => match step o s op with
    | none => True
    | some (s', w) => (∀ x, w = some x → Joined s' x) ∧ Ordered o s' ops

theorem sound_of_ordered (o : Ords) {s : St} (hi : Inv s) (ops : List Op) (h : Ordered o s ops) : Sound o s ops := by
  induction ops generalizing s with
  | nil => trivial
  | cons op ops ih =>
    simp only [Ordered] at h
    simp only [Sound]
    split
    · trivial
    · rename_i s' w hs
      rw [hs] at h
      obtain ⟨h1, h2⟩ := h
      obtain ⟨g1, g2⟩ := inv_step o hi hs h1
      exact ⟨g2, ih g1 h2⟩

theorem tick_relS (s : St) (t : Nat) (b : Bool) : (tick s t b).relS = s.relS := rfl

/-- With acquiring and releasing decrements, the counters carry what happened before every drop. -/
theorem ordered_of_acqRel (o : Ords) (h1 : o.drop = .acqRel) (h2 : o.dropW = .acqRel) (h3 : o.unique = .acqRel) (s : St)
    (hS : ∀ u, s.dropsS u ≤ s.relS u) (hW : ∀ u, s.dropsW u ≤ s.relW u) (ops : List Op) : Ordered o s ops := by
  have rS : ∀ (q : Ord) (s : St) (t u : Nat), s.relS u ≤ (rmwS q s t).relS u := by
    intro q s t u
    cases q with
    | relaxed => exact Nat.le_refl _
    | acqRel => exact le_join_right _ _ _
  have rW : ∀ (q : Ord) (s : St) (t u : Nat), s.relW u ≤ (rmwW q s t).relW u := by
    intro q s t u
    cases q with
    | relaxed => exact Nat.le_refl _
    | acqRel => exact le_join_right _ _ _
  have eS : ∀ (q : Ord) (s : St) (t : Nat), (rmwS q s t).relW = s.relW := by
    intro q s t; cases q <;> rfl
  have eW : ∀ (q : Ord) (s : St) (t : Nat), (rmwW q s t).relS = s.relS := by
    intro q s t; cases q <;> rfl
  induction ops generalizing s with
  | nil => trivial
  | cons op ops ih =>
    simp only [Ordered]
    split
    · trivial
    · rename_i s' w hs
      suffices h : (∀ x, w = some x → Joined s' x) ∧ (∀ u, s'.dropsS u ≤ s'.relS u) ∧ (∀ u, s'.dropsW u ≤ s'.relW u) from ⟨h.1, ih s' h.2.1 h.2.2⟩
      have none_ : ∀ s : St, ∀ x, (none : Option Want) = some x → Joined s x := fun _ _ h => by cases h
      cases op with
      | access t =>
        simp only [step] at hs
        split at hs
        · cases hs; exact ⟨none_ _, hS, hW⟩
        · cases hs
      | clone t =>
        simp only [step] at hs
        split at hs
        · cases hs
          refine ⟨none_ _, fun u => ?_, fun u => ?_⟩
          · simp only [rmwS_rest]; exact Nat.le_trans (hS u) (rS o.incr (tick s t false) t u)
          · simp only [rmwS_rest, eS]; exact hW u
        · cases hs
      | upgrade t =>
        simp only [step] at hs
        split at hs
        · split at hs <;> cases hs <;> refine ⟨none_ _, fun u => ?_, fun u => ?_⟩
          · simp only [rmwS_rest]; exact Nat.le_trans (hS u) (rS o.upgrade (tick s t false) t u)
          · simp only [rmwS_rest, eS]; exact hW u
          · simp only [rmwS_rest]; exact Nat.le_trans (hS u) (rS o.upgrade (tick s t false) t u)
          · simp only [rmwS_rest, eS]; exact hW u
        · cases hs
      | downgrade t =>
        simp only [step] at hs
        split at hs
        · cases hs
          refine ⟨none_ _, fun u => ?_, fun u => ?_⟩
          · simp only [rmwW_rest, eW]; exact hS u
          · simp only [rmwW_rest]; exact Nat.le_trans (hW u) (rW o.incr (tick s t false) t u)
        · cases hs
      | cloneW t =>
        simp only [step] at hs
        split at hs
        · cases hs
          refine ⟨none_ _, fun u => ?_, fun u => ?_⟩
          · simp only [rmwW_rest, eW]; exact hS u
          · simp only [rmwW_rest]; exact Nat.le_trans (hW u) (rW o.incr (tick s t false) t u)
        · cases hs
      | drop t =>
        simp only [step, h1, rmwS] at hs
        have hd : ∀ u, join s.dropsS ((tick s t false).clk t) u ≤ join ((tick s t false).clk t) s.relS u := by
          intro u
          have := hS u
          simp only [join]; omega
        split at hs
        · split at hs <;> cases hs
          · refine ⟨fun x hx => ?_, hd, hW⟩
            cases hx
            intro u
            simp only [upd_same]
            exact hd u
          · exact ⟨none_ _, hd, hW⟩
        · cases hs
      | dropW t =>
        simp only [step, h2, rmwW] at hs
        have hd : ∀ u, join s.dropsW ((tick s t false).clk t) u ≤ join ((tick s t false).clk t) s.relW u := by
          intro u
          have := hW u
          simp only [join]; omega
        split at hs
        · split at hs <;> cases hs
          · refine ⟨fun x hx => ?_, hS, hd⟩
            cases hx
            intro u
            simp only [upd_same]
            exact hd u
          · exact ⟨none_ _, hS, hd⟩
        · cases hs
      | write t =>
        simp only [step, h3, loadS] at hs
        split at hs
        · cases hs
          refine ⟨fun x hx => ?_, hS, hW⟩
          cases hx
          intro u
          simp only [upd_same]
          exact Nat.le_trans (hS u) (le_join_right _ _ _)
        · cases hs
      | sync t u =>
        simp only [step] at hs
        cases hs
        exact ⟨none_ _, hS, hW⟩
      | send t u =>
        simp only [step] at hs
        split at hs
        · cases hs; exact ⟨none_ _, hS, hW⟩
        · cases hs
      | sendW t u =>
        simp only [step] at hs
        split at hs
        · cases hs; exact ⟨none_ _, hS, hW⟩
        · cases hs

/-- For evaluation: only the first three threads. -/
def check (o : Ords) (s : St) : List Op → Bool
  | [] => true
  | op :: ops => match step o s op with
    | none => true
    | some (s', w) => (match w with
        | none => true
        | some (.value t) => (List.range 3).all fun u => s'.acc u ≤ s'.clk t u
        | some (.memory t) => (List.range 3).all fun u => s'.use u ≤ s'.clk t u) && check o s' ops

theorem check_of_sound (o : Ords) (s : St) (ops : List Op) (h : Sound o s ops) : check o s ops = true := by
  induction ops generalizing s with
  | nil => rfl
  | cons op ops ih =>
    simp only [Sound] at h
    simp only [check]
    split
    · rfl
    · rename_i s' w hs
      rw [hs] at h
      obtain ⟨h1, h2⟩ := h
      rw [ih s' h2, Bool.and_true]
      split
      · rfl
      · rename_i t
        simp only [List.all_eq_true, decide_eq_true_eq]
        exact fun u _ => h1 _ rfl u
      · rename_i t
        simp only [List.all_eq_true, decide_eq_true_eq]
        exact fun u _ => h1 _ rfl u

/-- thread 1 uses the value and drops its handle; thread 0 drops the last one -/
def badDrop : List Op := [.clone 0, .send 0 1, .access 1, .drop 1, .drop 0]
/-- thread 1 uses the value and drops its handle; thread 0 finds its handle to be the only one and writes -/
def badWrite : List Op := [.clone 0, .send 0 1, .access 1, .drop 1, .write 0]
/-- thread 1 uses and drops a weak handle; thread 0 drops its own, the last of both kinds, and frees the memory -/
def badFree : List Op := [.downgrade 0, .sendW 0 1, .upgrade 1, .access 1, .drop 1, .dropW 1, .drop 0, .dropW 0]

/-- C26.  With weak handles: in every history of a safe program, the value is destroyed and written after all its uses and the memory is freed after all uses of value and counters, if and
only if the decrements of both counters and the check for uniqueness synchronise; the orderings of increments and of `upgrade` do not matter. -/
theorem C26_weak_orders (o : Ords) : (∀ ops, Sound o St.new ops) ↔ o.drop = .acqRel ∧ o.dropW = .acqRel ∧ o.unique = .acqRel := by
  constructor
  · intro h
    have h1 := check_of_sound _ _ _ (h badDrop)
    have h2 := check_of_sound _ _ _ (h badWrite)
    have h3 := check_of_sound _ _ _ (h badFree)
    obtain ⟨d, w, q, p, i⟩ := o
    revert h1 h2 h3
    cases d <;> cases w <;> cases q <;> cases p <;> cases i <;> decide
  · rintro ⟨h1, h2, h3⟩ ops
    exact sound_of_ordered o inv_new ops (ordered_of_acqRel o h1 h2 h3 _ (fun _ => Nat.le_refl _) (fun _ => Nat.le_refl _) ops)

/-- C26 (partial).  With the orderings in the code, the same holds for the histories in which the program itself orders every drop of a strong handle before the drop of the last
one and before a successful `get_mut`, and every drop of a weak handle before the one that frees the memory.  Missing: the other histories, where it fails. -/
theorem C26_weak_partial (ops : List Op) (h : Ordered code St.new ops) : Sound code St.new ops :=
  sound_of_ordered code inv_new ops h

/-- C26 (refuted).  With the orderings in the code a value is destroyed, a value is written through `get_mut`, and memory is freed while another thread may still be using it. -/
theorem C26_free_refuted : ¬ Sound code St.new badDrop ∧ ¬ Sound code St.new badWrite ∧ ¬ Sound code St.new badFree := by
  refine ⟨fun h => ?_, fun h => ?_, fun h => ?_⟩ <;> exact absurd (check_of_sound _ _ _ h) (by decide)

/-- C26 (refuted).  Making only the strong counter synchronise is not enough: a thread that only ever upgrades and drops weak handles can still use the counters as they are freed. -/
theorem C26_weak_counter_refuted : ¬ Sound ⟨.acqRel, .relaxed, .acqRel, .acqRel, .acqRel⟩ St.new badFree :=
  fun h => absurd (check_of_sound _ _ _ h) (by decide)

/-- The hypotheses are met: with synchronisation by the program (a join of the other thread) the code's orderings do. -/
example : Ordered code St.new [.clone 0, .send 0 1, .access 1, .drop 1, .sync 1 0, .drop 0, .dropW 0] := by
  refine ⟨(fun _ h => nomatch h), (fun _ h => nomatch h), (fun _ h => nomatch h), (fun _ h => nomatch h), (fun _ h => nomatch h), (fun x h => ?_), (fun x h => ?_), trivial⟩
  · cases h
    intro u
    match u with
    | 0 => decide
    | 1 => decide
    | n + 2 => simp [St.new, tick, rmwS, learn, upd, join, code]
  · cases h
    intro u
    match u with
    | 0 => decide
    | 1 => decide
    | n + 2 => simp [St.new, tick, rmwS, rmwW, learn, upd, join, code]
example : check ⟨.acqRel, .acqRel, .acqRel, .relaxed, .relaxed⟩ St.new badFree = true := by decide

end Verif.Props.Free
