import Verif.Sync.Order

/-! Property C26. -/
namespace Verif.Props.Order
open Verif.Sync.Order

/-- Thread 0 gives a clone to thread 1, which reads the value and drops it; thread 0 drops the last handle. -/
def handOver : List Op := [.clone 0, .send 0 1, .access 1, .drop 1, .drop 0]

/-- The read does not happen before the destruction. -/
theorem C26_drop_refuted : ¬ Sound Code St.new handOver := by
  simp [Sound, handOver, step, St.new, upd, rmw, join, Code, Ordered]

/-- Nor before an exclusive access. -/
theorem C26_get_mut_refuted : ¬ Sound Code St.new [.clone 0, .send 0 1, .access 1, .drop 1, .write 0] := by
  simp [Sound, step, St.new, upd, rmw, load, join, Code, Ordered]

/-- Every access is known to some thread that still owns a handle, or was before some drop. -/
structure Inv (s : St) : Prop where
  cover : s.destroyed = false → ∀ u, s.acc u ≤ s.drops u ∨ ∃ v, 0 < s.owns v ∧ s.acc u ≤ s.clk v u
  count : ∃ n, (∀ t, n ≤ t → s.owns t = 0) ∧ s.strong = ((List.range n).map s.owns).sum
  gone : s.destroyed = true → s.strong = 0

theorem sum_upd : ∀ (n t : Nat) (f : Nat → Nat) (x : Nat), t < n →
    ((List.range n).map (upd f t x)).sum + f t = ((List.range n).map f).sum + x := by
  intro n
  induction n with
  | zero => intro t f x h; omega
  | succ n ih =>
    intro t f x h
    simp only [List.range_succ, List.map_append, List.sum_append, List.map_cons, List.map_nil, List.sum_cons, List.sum_nil]
    by_cases ht : t = n
    · subst ht
      have : (List.range t).map (upd f t x) = (List.range t).map f := by
        apply List.map_congr_left
        intro a ha
        have := List.mem_range.1 ha
        simp [upd]; omega
      rw [this]; simp [upd]; omega
    · have := ih t f x (by omega)
      have hn : upd f t x n = f n := by simp [upd]; omega
      omega

theorem sum_grow (f : Nat → Nat) (n : Nat) (h : ∀ t, n ≤ t → f t = 0) : ∀ m, ((List.range (n + m)).map f).sum = ((List.range n).map f).sum := by
  intro m
  induction m with
  | zero => rfl
  | succ m ih =>
    rw [← Nat.add_assoc, List.range_succ]
    simp [ih, h (n + m) (by omega)]

/-- The number of handles does not depend on the number of threads considered. -/
theorem count_upd {f : Nat → Nat} {k : Nat} (h : ∃ n, (∀ t, n ≤ t → f t = 0) ∧ k = ((List.range n).map f).sum) (t x : Nat) :
    ∃ n, (∀ v, n ≤ v → upd f t x v = 0) ∧ k + x - f t = ((List.range n).map (upd f t x)).sum ∧ f t ≤ k := by
  obtain ⟨n, h1, h2⟩ := h
  refine ⟨n + (t + 1), fun v hv => ?_, ?_⟩
  · simp only [upd]; rw [if_neg (by omega)]; exact h1 v (by omega)
  · have := sum_upd (n + (t + 1)) t f x (by omega)
    have h3 := sum_grow f n h1 (t + 1)
    have h4 := sum_upd (n + (t + 1)) t f 0 (by omega)
    omega

theorem sole {f : Nat → Nat} {k : Nat} (h : ∃ n, (∀ t, n ≤ t → f t = 0) ∧ k = ((List.range n).map f).sum) (hk : k = 1) (t : Nat) (ht : 0 < f t) :
    ∀ v, v ≠ t → f v = 0 := by
  intro v hv
  obtain ⟨n, h1, h2, h3⟩ := count_upd h t 0
  obtain ⟨_, _, _, h4⟩ := count_upd ⟨n, h1, h2⟩ v 0
  have : upd f t 0 v = f v := by simp [upd, hv]
  omega

theorem inv_new : Inv St.new := by
  refine ⟨fun _ u => .inl (Nat.le_refl _), ⟨1, fun t ht => ?_, rfl⟩, fun h => (nomatch h)⟩
  simp [St.new]; omega

theorem step_inv {o : Ord} {s s' : St} {op : Op} {w : Option Nat} (h : Inv s) (hs : step o s op = some (s', w)) :
    Inv s' ∧ (∀ t, w = some t → 0 < s.owns t ∧ s.strong = 1 ∧ s'.acc = s.acc ∧ ∀ u, s.clk t u ≤ s'.clk t u) := by
  obtain ⟨hcov, hcnt, hgone⟩ := h
  cases op with
  | access t =>
    simp only [step] at hs
    split at hs
    · next ht =>
      cases hs
      refine ⟨⟨fun hd u => ?_, hcnt, hgone⟩, fun _ h => (nomatch h)⟩
      by_cases hu : u = t
      · subst hu; exact .inr ⟨u, ht, by simp [upd]⟩
      · rcases hcov hd u with q | ⟨v, q1, q2⟩
        · left; simpa [upd, hu] using q
        · refine .inr ⟨v, q1, ?_⟩
          by_cases hv : v = t <;> simp [upd, hu, hv] <;> simpa [hv] using q2
    · cases hs
  | clone t =>
    simp only [step] at hs
    split at hs
    · next ht =>
      cases hs
      have hc := count_upd hcnt t (s.owns t + 1)
      refine ⟨⟨fun hd u => ?_, ?_, ?_⟩, fun _ h => (nomatch h)⟩
      · rcases hcov hd u with q | ⟨v, q1, q2⟩
        · exact .inl q
        · refine .inr ⟨v, ?_, q2⟩
          simp only [upd]; split <;> omega
      · obtain ⟨n, a, b, c⟩ := hc
        exact ⟨n, a, by simpa using (by omega : s.strong + 1 = _)⟩
      · intro hd
        have := hgone hd
        obtain ⟨n, a, b, c⟩ := hc
        omega
    · cases hs
  | send t u =>
    simp only [step] at hs
    split at hs
    · next ht =>
      cases hs
      refine ⟨⟨fun hd x => ?_, ?_, hgone⟩, fun _ h => (nomatch h)⟩
      · rcases hcov hd x with q | ⟨v, q1, q2⟩
        · exact .inl q
        · by_cases hv : v = t
          · subst hv
            refine .inr ⟨u, by simp [upd], ?_⟩
            simp [upd, join]; omega
          · refine .inr ⟨v, ?_, ?_⟩
            · simp only [upd]; split
              · omega
              · exact q1
            · by_cases hvu : v = u
              · subst hvu; simp [upd, join]; omega
              · simpa [upd, hvu] using q2
      · obtain ⟨n, a, b, c⟩ := count_upd hcnt t (s.owns t - 1)
        obtain ⟨n', a', b', c'⟩ := count_upd ⟨n, a, b⟩ u (upd s.owns t (s.owns t - 1) u + 1)
        exact ⟨n', a', by rw [← b']; show s.strong = _; omega⟩
    · cases hs
  | sync t u =>
    simp only [step] at hs
    cases hs
    refine ⟨⟨fun hd x => ?_, hcnt, hgone⟩, fun _ h => (nomatch h)⟩
    rcases hcov hd x with q | ⟨v, q1, q2⟩
    · exact .inl q
    · refine .inr ⟨v, q1, ?_⟩
      by_cases hvu : v = u
      · subst hvu; simp [upd, join]; omega
      · simpa [upd, hvu] using q2
  | drop t =>
    simp only [step] at hs
    split at hs
    · next ht =>
      have hc := count_upd hcnt t (s.owns t - 1)
      have hclk : ∀ v x, s.clk v x ≤ (rmw o s t).clk v x := by
        intro v x
        cases o with
        | relaxed => exact Nat.le_refl _
        | acqRel => by_cases hv : v = t <;> simp [rmw, upd, join, hv]; omega
      have hacc : (rmw o s t).acc = s.acc := by cases o <;> rfl
      have hdes : (rmw o s t).destroyed = s.destroyed := by cases o <;> rfl
      have hc2 : ∃ n, (∀ v, n ≤ v → upd s.owns t (s.owns t - 1) v = 0) ∧ s.strong - 1 = ((List.range n).map (upd s.owns t (s.owns t - 1))).sum := by
        obtain ⟨n, a, b, c⟩ := hc
        exact ⟨n, a, by omega⟩
      have hpos : s.destroyed = false := by
        cases hd : s.destroyed with
        | false => rfl
        | true => obtain ⟨_, _, _, c⟩ := hc; have := hgone hd; omega
      split at hs
      · next h1 =>
        cases hs
        refine ⟨⟨fun hd => (nomatch hd), hc2, fun _ => by show s.strong - 1 = 0; omega⟩, ?_⟩
        intro t' ht'
        cases ht'
        exact ⟨ht, h1, hacc, fun u => hclk t u⟩
      · cases hs
        refine ⟨⟨fun hd u => ?_, hc2, fun hd => ?_⟩, fun _ h => (nomatch h)⟩
        · show (rmw o s t).acc u ≤ join s.drops (s.clk t) u ∨ ∃ v, 0 < upd s.owns t (s.owns t - 1) v ∧ (rmw o s t).acc u ≤ (rmw o s t).clk v u
          rw [hacc]
          rcases hcov hpos u with q | ⟨v, q1, q2⟩
          · left; simp only [join]; omega
          · by_cases hv : v = t
            · subst hv; left; simp only [join]; omega
            · exact .inr ⟨v, by simpa [upd, hv] using q1, Nat.le_trans q2 (hclk v u)⟩
        · have hd : (rmw o s t).destroyed = true := hd
          rw [hdes, hpos] at hd; cases hd
    · cases hs
  | write t =>
    simp only [step] at hs
    split at hs
    · next ht =>
      cases hs
      have hclk : ∀ v x, s.clk v x ≤ (load o s t).clk v x := by
        intro v x
        cases o with
        | relaxed => exact Nat.le_refl _
        | acqRel => by_cases hv : v = t <;> simp [load, upd, join, hv]; omega
      have hacc : (load o s t).acc = s.acc := by cases o <;> rfl
      refine ⟨?_, ?_⟩
      · refine ⟨fun hd u => ?_, ?_, ?_⟩
        · have hd : s.destroyed = false := by cases o <;> exact hd
          have h1 : (load o s t).drops = s.drops := by cases o <;> rfl
          have h2 : (load o s t).owns = s.owns := by cases o <;> rfl
          rw [hacc, h1, h2]
          rcases hcov hd u with q | ⟨v, q1, q2⟩
          · exact .inl q
          · exact .inr ⟨v, q1, Nat.le_trans q2 (hclk v u)⟩
        · cases o <;> exact hcnt
        · cases o <;> exact hgone
      · intro t' ht'
        cases ht'
        exact ⟨ht.1, ht.2, hacc, fun u => hclk t u⟩
    · cases hs

/-- What a destroying or exclusive step still needs: to come after the earlier drops. -/
theorem ordered_of {o : Ord} {s s' : St} {op : Op} {t : Nat} (h : Inv s) (hs : step o s op = some (s', some t)) (hd : ∀ u, s.drops u ≤ s'.clk t u) :
    Ordered s' t := by
  obtain ⟨_, h2⟩ := step_inv h hs
  obtain ⟨ho, h1, ha, hc⟩ := h2 t rfl
  intro u
  rw [ha]
  have hnd : s.destroyed = false := by
    cases hq : s.destroyed with
    | false => rfl
    | true => have := h.gone hq; omega
  rcases h.cover hnd u with q | ⟨v, q1, q2⟩
  · exact Nat.le_trans q (hd u)
  · by_cases hv : v = t
    · subst hv; exact Nat.le_trans q2 (hc u)
    · have := sole h.count h1 t ho v hv; omega

/-- With the orderings of the code, every access happens before the destruction and before exclusive accesses in all histories of any number
of threads in which the program itself synchronises the earlier drops with the thread that gets to be last.  What is missing
from C26: the other histories, see `C26_drop_refuted`. -/
theorem C26_history_partial (ops : List Op) (h : SelfSync Code St.new ops) : Sound Code St.new ops := by
  have key : ∀ (ops : List Op) (s : St), Inv s → SelfSync Code s ops → Sound Code s ops := by
    intro ops
    induction ops with
    | nil => intro s _ _; trivial
    | cons op ops ih =>
      intro s hi hp
      simp only [SelfSync] at hp
      simp only [Sound]
      split
      · trivial
      · next s' w hs =>
        simp only [hs] at hp
        refine ⟨fun t ht => ?_, ih s' (step_inv hi hs).1 hp.2⟩
        subst ht
        exact ordered_of hi hs fun u => Nat.le_trans (hp.1 t rfl u) (((step_inv hi hs).2 t rfl).2.2.2 u)
  exact key ops _ inv_new h

/-- Thread 1 reads and drops, thread 0 joins it before dropping the last handle. -/
example : SelfSync Code St.new [.clone 0, .send 0 1, .access 1, .drop 1, .sync 1 0, .drop 0] := by
  simp [SelfSync, step, St.new, upd, rmw, join, Code, DropsBefore]

/-- Acquire-release operations on the counter (and an acquire load for exclusive access) would make every history sound. -/
theorem C26_acquire_release (ops : List Op) : Sound .acqRel St.new ops := by
  have key : ∀ (ops : List Op) (s : St), Inv s → (∀ u, s.drops u ≤ s.rel u) → Sound .acqRel s ops := by
    intro ops
    induction ops with
    | nil => intro s _ _; trivial
    | cons op ops ih =>
      intro s hi hp
      simp only [Sound]
      split
      · trivial
      · next s' w hs =>
        refine ⟨fun t ht => ?_, ih s' (step_inv hi hs).1 ?_⟩
        · subst ht
          refine ordered_of hi hs fun u => ?_
          cases op <;> simp only [step, rmw, load] at hs <;> (try split at hs) <;> (try split at hs) <;> cases hs
          all_goals simp [upd, join]; have := hp u; omega
        · intro u
          have := hp u
          cases op <;> simp only [step, rmw, load] at hs <;> (try split at hs) <;> (try split at hs) <;> cases hs
          all_goals (try simp only [join])
          all_goals omega
  exact key ops _ inv_new (fun _ => Nat.le_refl _)

end Verif.Props.Order
