import Verif.Vec.Unwind

namespace Verif.Vec
variable {α : Type}

theorem glue_all (bad : α → Bool) (b : Bool) (l : List α) (h : ∀ x ∈ l, bad x = false) : glue bad b l = (l, .fine) := by
  induction l with
  | nil => cases b <;> rfl
  | cons x xs ih =>
    have hx := h x (by simp)
    have := ih (fun y hy => h y (by simp [hy]))
    cases b <;> simp [glue, hx, this]

theorem glue_true_ne (bad : α → Bool) (l : List α) : (glue bad true l).2 ≠ .unwound := by
  induction l with
  | nil => simp [glue]
  | cons x xs ih => simp only [glue]; split <;> simp_all

theorem glue_prefix (bad : α → Bool) (b : Bool) (l : List α) : ∃ r, l = (glue bad b l).1 ++ r := by
  have ht : ∀ l, ∃ r, l = (glue bad true l).1 ++ r := by
    intro l
    induction l with
    | nil => exact ⟨[], rfl⟩
    | cons x xs ih =>
      obtain ⟨r, hr⟩ := ih
      simp only [glue]
      split
      · exact ⟨xs, rfl⟩
      · exact ⟨r, by simpa using hr⟩
  cases b with
  | true => exact ht l
  | false =>
    induction l with
    | nil => exact ⟨[], rfl⟩
    | cons x xs ih =>
      obtain ⟨r, hr⟩ := ih
      simp only [glue]
      split
      · obtain ⟨r, hr⟩ := ht xs
        exact ⟨r, by simpa using hr⟩
      · exact ⟨r, by simpa using hr⟩

theorem glue_whole (bad : α → Bool) (b : Bool) (l : List α) (h : (glue bad b l).2 ≠ .aborted) : (glue bad b l).1 = l := by
  have ht : ∀ l, (glue bad true l).2 ≠ .aborted → (glue bad true l).1 = l := by
    intro l
    induction l with
    | nil => intro _; rfl
    | cons x xs ih =>
      simp only [glue]
      split
      · intro h; exact absurd rfl h
      · intro h; simp [ih h]
  cases b with
  | true => exact ht l h
  | false =>
    induction l with
    | nil => rfl
    | cons x xs ih =>
      simp only [glue] at h ⊢
      split at h
      · rename_i hb
        rw [if_pos hb]
        by_cases ha : (glue bad true xs).2 = .aborted
        · simp [ha] at h
        · simp [ht xs ha]
      · rename_i hb
        rw [if_neg hb]
        simp [ih h]

theorem glue_not_fine (bad : α → Bool) (b : Bool) (l : List α) (h : (glue bad b l).2 ≠ .fine) : ∃ x ∈ l, bad x = true := by
  refine Classical.byContradiction fun hn => ?_
  have : ∀ x ∈ l, bad x = false := by
    intro x hx
    cases hb : bad x with
    | false => rfl
    | true => exact absurd ⟨x, hx, hb⟩ hn
  rw [glue_all bad b l this] at h
  exact h rfl

theorem glue_fine (bad : α → Bool) (b : Bool) (l : List α) (h : (glue bad b l).2 = .fine) : ∀ x ∈ l, bad x = false := by
  have ht : ∀ l, (glue bad true l).2 = .fine → ∀ x ∈ l, bad x = false := by
    intro l
    induction l with
    | nil => simp
    | cons x xs ih =>
      simp only [glue]
      split
      · intro h; cases h
      · intro h; simpa using ⟨by simp_all, ih h⟩
  cases b with
  | true => exact ht l h
  | false =>
    induction l with
    | nil => simp
    | cons x xs ih =>
      simp only [glue] at h
      split at h
      · split at h <;> cases h
      · simpa using ⟨by simp_all, ih h⟩

theorem dropGlue_spec (bad : α → Bool) (b : Bool) (s : St α) (l : List α) (rest) (hc : s.v.cells = l.map some ++ rest) (i n : Nat)
    (h : i + n ≤ l.length) :
    dropGlue bad b s i n = some ((glue bad b ((l.drop i).take n)).2, { s with dropped := s.dropped ++ (glue bad b ((l.drop i).take n)).1 }) := by
  simp [dropGlue, slice_spec s.v l rest hc n i h]

/-- What `Drop for Vec` does when destructors may unwind. -/
theorem dropVecU_spec {e : Env} (bad : α → Bool) (b : Bool) (u : USt α) (l : List α) (h : VInv e u.s.v l) (hb : Bal u.s) :
    ∃ f u', dropVecU bad b u = some (f, u') ∧ f = (glue bad b l).2 ∧ u'.s.v = .new ∧ Bal u'.s ∧
      u'.s.dropped = u.s.dropped ++ (glue bad b l).1 ∧ (f = .fine → u'.lost = u.lost) ∧
      u'.lost ≤ u.lost + 1 ∧ (f ≠ .fine → u'.lost = u.lost + live u.s.v) ∧
      (f = .fine → u'.s.frees = u.s.frees + live u.s.v) := by
  obtain ⟨rest, hd⟩ := h.data
  unfold dropVecU
  rw [h.len, dropGlue_spec bad b u.s l rest hd 0 _ (by omega)]
  simp only [List.drop_zero, List.take_length, Option.bind_eq_bind, Option.bind_some]
  have hbk := h.blk
  have hb' := hb
  unfold Bal live at hb'
  generalize hg : glue bad b l = g
  obtain ⟨d, f⟩ := g
  dsimp only
  cases f with
  | fine =>
    dsimp only
    by_cases hc : u.s.v.cap = 0
    · rw [if_neg (by simp [hc])]
      refine ⟨_, _, rfl, rfl, rfl, ?_, rfl, fun _ => rfl, by simp, by simp, by simp [live, hc]⟩
      rw [if_pos hc] at hb'; simpa [Bal, live, Vec.new] using hb'
    · rw [if_pos hc]
      simp only [free]
      cases hblk : u.s.v.block with
      | none => simp [hblk, hc] at hbk
      | some blk =>
        refine ⟨_, _, rfl, rfl, rfl, ?_, rfl, fun _ => rfl, by simp, by simp, by simp [live, hc]⟩
        rw [if_neg hc] at hb'; simpa [Bal, live, Vec.new] using hb'
  | unwound =>
    dsimp only
    by_cases hc : u.s.v.cap = 0
    · rw [if_neg (by simp [hc])]
      refine ⟨_, _, rfl, rfl, rfl, ?_, rfl, by simp, by simp, by simp [live, hc], by simp⟩
      rw [if_pos hc] at hb'; simpa [Bal, live, Vec.new] using hb'
    · rw [if_pos hc]
      refine ⟨_, _, rfl, rfl, rfl, ?_, rfl, by simp, by simp, by simp [live, hc], by simp⟩
      rw [if_neg hc] at hb'; simp only [Bal, live, Vec.new, if_true]; omega
  | aborted =>
    dsimp only
    by_cases hc : u.s.v.cap = 0
    · rw [if_neg (by simp [hc])]
      refine ⟨_, _, rfl, rfl, rfl, ?_, rfl, by simp, by simp, by simp [live, hc], by simp⟩
      rw [if_pos hc] at hb'; simpa [Bal, live, Vec.new] using hb'
    · rw [if_pos hc]
      refine ⟨_, _, rfl, rfl, rfl, ?_, rfl, by simp, by simp, by simp [live, hc], by simp⟩
      rw [if_neg hc] at hb'; simp only [Bal, live, Vec.new, if_true]; omega

/-- What the caller got when the call ended that way. -/
def Exit.outs : Exit α → List α
  | .done (.moved (some x)) => [x]
  | .done (.back x) => [x]
  | .done (.yielded l) => l
  | .unwound l => l
  | _ => []

/-- The elements handed to the vector. -/
def UOp.ins : UOp α → List α
  | .push x | .tryPush x => [x]
  | .extend l _ _ _ => l
  | _ => []

/-- What is proved of one operation that did not take down the process: the vector holds `l'`; `made` are the clones made by the operation,
`leak` the elements that will never be dropped. -/
structure UGood (e : Env) (w : User α) (u : USt α) (l : List α) (op : UOp α) (x : Exit α) (u' : USt α) (l' made leak : List α) : Prop where
  inv : VInv e u'.s.v l'
  bal : Bal u'.s
  ledger : (u'.s.dropped ++ x.outs ++ l' ++ leak).Perm (u.s.dropped ++ (op.ins ++ made) ++ l)
  done : ∀ r, x = .done r → leak = [] ∧ u'.lost = u.lost
  lost : u'.lost ≤ u.lost + 1
  made : ∀ y ∈ made, op = .clone ∧ ∃ z, w.cl z = some y

/-- An operation that took down the process: nothing was dropped twice until then. -/
structure UGone (w : User α) (u : USt α) (l : List α) (op : UOp α) (u' : USt α) (made leak : List α) : Prop where
  ledger : (u'.s.dropped ++ leak).Perm (u.s.dropped ++ (op.ins ++ made) ++ l)
  bad : ∃ y, w.bad y = true
  made : ∀ y ∈ made, op = .clone ∧ ∃ z, w.cl z = some y

macro "perm_count" : tactic =>
  `(tactic| (rw [List.perm_iff_count]; intro a; simp only [List.count_append, List.count_nil, List.count_cons]; omega))

/-- An operation without user code. -/
theorem plainU_good {e : Env} (w : User α) (u : USt α) (l : List α) (op : Op α) (uop : UOp α) (x : Option (Res α × St α))
    (hi : uop.ins = op.ins) (ho : ∀ r, (Exit.of r).outs = outs op r)
    (h : ∃ r s' l', x = some (r, s') ∧ Good e u.s l op r s' l') :
    ∃ r s' l', plainU u x = some (Exit.of r, ⟨s', u.lost⟩) ∧ Spec op (decide (s'.refused ≠ u.s.refused)) l r l' ∧
      UGood e w u l uop (Exit.of r) ⟨s', u.lost⟩ l' [] [] := by
  obtain ⟨r, s', l', rfl, g⟩ := h
  refine ⟨r, s', l', rfl, g.spec, ⟨g.inv, g.bal, ?_, fun _ _ => ⟨rfl, rfl⟩, by simp, by simp⟩⟩
  simpa [ho, hi] using g.ledger

theorem unwindDrop_cases (bad : α → Bool) (s : St α) (xs : List α) :
    ((unwindDrop bad s xs) = (.unwound [], { s with dropped := s.dropped ++ xs }) ∧ ∀ x ∈ xs, bad x = false) ∨
    ((unwindDrop bad s xs).1 = .aborted ∧ (∃ r, xs = (glue bad true xs).1 ++ r ∧
      (unwindDrop bad s xs).2 = { s with dropped := s.dropped ++ (glue bad true xs).1 }) ∧ ∃ x, bad x = true) := by
  unfold unwindDrop
  cases hf : (glue bad true xs).2 with
  | fine =>
    have := glue_whole bad true xs (by simp [hf])
    exact .inl ⟨by simp [this], glue_fine bad true xs hf⟩
  | unwound => exact absurd hf (glue_true_ne bad xs)
  | aborted =>
    obtain ⟨r, hr⟩ := glue_prefix bad true xs
    obtain ⟨x, _, hx⟩ := glue_not_fine bad true xs (by simp [hf])
    exact .inr ⟨by simp, ⟨r, hr, rfl⟩, x, hx⟩

theorem pushU_good {e : Env} (he : Sane e) (w : User α) (u : USt α) (l : List α) (h : VInv e u.s.v l) (hb : Bal u.s) (x : α) :
    ∃ r u', ustep w e u (.push x) = some (r, u') ∧
      ((r = .aborted ∧ ∃ leak, UGone w u l (.push x) u' [] leak) ∨
       (r = .done .unit ∧ UGood e w u l (.push x) r u' (l ++ [x]) [] []) ∨
       (r = .unwound [] ∧ u.s.refused < u'.s.refused ∧ UGood e w u l (.push x) r u' l [] [])) := by
  classical
  have fin : ∀ s1 : St α, Reserved e u.s s1 l 1 → ∃ r u', withLost u (do return (Exit.done .unit, ← pushRaw s1 x)) = some (r, u') ∧
      r = .done .unit ∧ UGood e w u l (.push x) r u' (l ++ [x]) [] [] := by
    intro s1 r1
    obtain ⟨v', h1, i1, lv⟩ := pushRaw_spec s1 l r1.inv r1.room x
    refine ⟨.done .unit, ⟨{ s1 with v := v' }, u.lost⟩, by rw [h1]; rfl, rfl, ⟨i1, ?_, ?_, fun _ _ => ⟨rfl, rfl⟩, by simp, by simp⟩⟩
    · have := r1.bal; unfold Bal at *; dsimp only; rw [lv]; exact this
    · simp only [Exit.outs, UOp.ins, r1.dropped]; perm_count
  simp only [ustep, pushU]
  split
  · rcases tryGrow_spec he u.s l h hb with ⟨h1, r1⟩ | ⟨h1, h2⟩
    · generalize hg : tryGrow e u.s = g at *
      obtain ⟨b, s1⟩ := g
      subst h1
      obtain ⟨r, u', e1, e2, e3⟩ := fin s1 r1
      exact ⟨r, u', e1, .inr (.inl ⟨e2, e3⟩)⟩
    · generalize hg : tryGrow e u.s = g at *
      obtain ⟨b, s1⟩ := g
      dsimp only at h1 h2
      subst h1 h2
      dsimp only
      refine ⟨_, _, rfl, ?_⟩
      rcases unwindDrop_cases w.bad { u.s with tries := u.s.tries + 1, refused := u.s.refused + 1 } [x] with ⟨c1, _⟩ | ⟨c1, ⟨r, c2, c3⟩, c4⟩
      · rw [c1]
        refine .inr (.inr ⟨rfl, Nat.lt_succ_self _, ⟨h, hb, ?_, fun r hr => by (cases hr), by simp, by simp⟩⟩)
        simp only [Exit.outs, UOp.ins]; perm_count
      · refine .inl ⟨c1, l ++ r, ⟨?_, c4, by simp⟩⟩
        rw [c3]; dsimp only [UOp.ins]
        have := fun a => congrArg (List.count a) c2
        rw [List.perm_iff_count]; intro a
        have := this a
        simp only [List.count_append, List.count_nil] at this ⊢
        omega
  · rename_i hne
    obtain ⟨r, u', e1, e2, e3⟩ := fin u.s ⟨h, by have := h.le; rw [h.len] at hne; omega, hb, rfl, rfl, rfl⟩
    exact ⟨r, u', e1, .inr (.inl ⟨e2, e3⟩)⟩

/-- The possible ends of `extend` and of its loop, in terms of the ledger. -/
def ExtendEnd (e : Env) (bad : α → Bool) (boom : Bool) (s : St α) (l xs : List α) (x : Exit α) (s' : St α) : Prop :=
  (x = .aborted ∧ (∃ y, bad y = true) ∧ ∃ leak, (s'.dropped ++ leak).Perm (s.dropped ++ xs ++ l)) ∨
  ∃ k, k ≤ xs.length ∧ VInv e s'.v (l ++ xs.take k) ∧ Bal s' ∧ s'.dropped = s.dropped ++ xs.drop k ∧
    (x = .done .unit ∧ boom = false ∧ k = xs.length ∨ x = .unwound [] ∧ (boom = true ∧ k = xs.length ∨ s.refused < s'.refused))

theorem refused_end {e : Env} (bad : α → Bool) (boom : Bool) (s s1 : St α) (l xs : List α) (h : VInv e s.v l) (hb : Bal s)
    (h1 : s1 = { s with tries := s.tries + 1, refused := s.refused + 1 }) :
    ExtendEnd e bad boom s l xs (unwindDrop bad s1 xs).1 (unwindDrop bad s1 xs).2 := by
  classical
  subst h1
  rcases unwindDrop_cases bad { s with tries := s.tries + 1, refused := s.refused + 1 } xs with ⟨c1, _⟩ | ⟨c1, ⟨r, c2, c3⟩, c4⟩
  · rw [c1]
    exact .inr ⟨0, by simp, by simpa using h, hb, by simp, .inr ⟨rfl, .inr (Nat.lt_succ_self _)⟩⟩
  · refine .inl ⟨c1, c4, r ++ l, ?_⟩
    rw [c3]; dsimp only
    have := fun a => congrArg (List.count a) c2
    rw [List.perm_iff_count]; intro a
    have := this a
    simp only [List.count_append] at this ⊢
    omega

theorem pushAllU_end {e : Env} (he : Sane e) (bad : α → Bool) (boom : Bool) (xs : List α) (s : St α) (l : List α) (h : VInv e s.v l) (hb : Bal s) :
    ∃ x s', pushAllU bad e boom s xs = some (x, s') ∧ ExtendEnd e bad boom s l xs x s' := by
  classical
  induction xs generalizing s l with
  | nil =>
    refine ⟨_, _, rfl, .inr ⟨0, by simp, by simpa using h, hb, by simp, ?_⟩⟩
    cases boom <;> simp
  | cons x xs ih =>
    have fin : ∀ s1 : St α, Reserved e s s1 l 1 → ∃ r s', (do pushAllU bad e boom (← pushRaw s1 x) xs) = some (r, s') ∧
        ExtendEnd e bad boom s l (x :: xs) r s' := by
      intro s1 r1
      obtain ⟨v', h1, i1, lv⟩ := pushRaw_spec s1 l r1.inv r1.room x
      have b1 : Bal { s1 with v := v' } := by have := r1.bal; unfold Bal at *; dsimp only; rw [lv]; exact this
      obtain ⟨r, s', e1, e2⟩ := ih { s1 with v := v' } (l ++ [x]) i1 b1
      refine ⟨r, s', by rw [h1]; exact e1, ?_⟩
      rcases e2 with ⟨q1, q2, leak, q3⟩ | ⟨k, q1, q2, q3, q4, q5⟩
      · refine .inl ⟨q1, q2, leak, q3.trans ?_⟩
        dsimp only; rw [r1.dropped]; perm_count
      · refine .inr ⟨k + 1, by simp; omega, by simpa using q2, q3, by rw [q4]; simp [r1.dropped], ?_⟩
        have := r1.refused
        rcases q5 with ⟨a, b, c⟩ | ⟨a, ⟨b, c⟩ | b⟩
        · exact .inl ⟨a, b, by simp [c]⟩
        · exact .inr ⟨a, .inl ⟨b, by simp [c]⟩⟩
        · exact .inr ⟨a, .inr (by dsimp only at b; omega)⟩
    simp only [pushAllU]
    split
    · rcases tryGrow_spec he s l h hb with ⟨h1, r1⟩ | ⟨h1, h2⟩
      · generalize hg : tryGrow e s = g at *
        obtain ⟨b, s1⟩ := g
        subst h1
        exact fin s1 r1
      · generalize hg : tryGrow e s = g at *
        obtain ⟨b, s1⟩ := g
        dsimp only at h1 h2
        subst h1
        exact ⟨_, _, rfl, refused_end bad boom s s1 l (x :: xs) h hb h2⟩
    · rename_i hne
      exact fin s ⟨h, by have := h.le; rw [h.len] at hne; omega, hb, rfl, rfl, rfl⟩

theorem extendU_end {e : Env} (he : Sane e) (bad : α → Bool) (s : St α) (l : List α) (h : VInv e s.v l) (hb : Bal s) (xs : List α)
    (lo : Nat) (hi : Option Nat) (boom : Bool) (ha : Args e (.extend xs lo hi)) :
    ∃ x s', extendU bad e s xs lo hi boom = some (x, s') ∧ ExtendEnd e bad boom s l xs x s' := by
  obtain ⟨ha1, ha2⟩ := ha
  unfold extendU
  cases hi with
  | some n =>
    obtain ⟨a1, a2⟩ := ha2 n rfl
    dsimp only
    rcases tryReserve_spec he s l h hb n a2 with ⟨h1, r1⟩ | ⟨h1, h2⟩
    · generalize tryReserve e s n = g at *
      obtain ⟨b, s1⟩ := g
      dsimp only at h1 r1
      subst h1
      have := r1.room
      obtain ⟨v', w1, w2, w3⟩ := writeTail s1.v l xs r1.inv (by omega)
      refine ⟨if boom then .unwound [] else .done .unit, { s1 with v := { v' with len := s1.v.len + xs.length } }, by simp [w1], ?_⟩
      refine .inr ⟨xs.length, Nat.le_refl _, by simpa using w2, ?_, by simp [r1.dropped], ?_⟩
      · have := r1.bal; unfold Bal live at *; dsimp only; rw [w3.cap]; exact this
      · cases boom <;> simp
    · generalize tryReserve e s n = g at *
      obtain ⟨b, s1⟩ := g
      dsimp only at h1 h2
      subst h1
      exact ⟨_, _, rfl, refused_end bad boom s s1 l xs h hb h2⟩
  | none =>
    dsimp only
    rcases tryReserve_spec he s l h hb lo ha1 with ⟨h1, r1⟩ | ⟨h1, h2⟩
    · generalize tryReserve e s lo = g at *
      obtain ⟨b, s1⟩ := g
      dsimp only at h1 r1
      subst h1
      obtain ⟨x, s', e1, e2⟩ := pushAllU_end he bad boom xs s1 l r1.inv r1.bal
      refine ⟨x, s', e1, ?_⟩
      rcases e2 with ⟨q1, q2, leak, q3⟩ | ⟨k, q1, q2, q3, q4, q5⟩
      · exact .inl ⟨q1, q2, leak, by rw [← r1.dropped]; exact q3⟩
      · refine .inr ⟨k, q1, q2, q3, by rw [q4, r1.dropped], ?_⟩
        rw [← r1.refused]; exact q5
    · generalize tryReserve e s lo = g at *
      obtain ⟨b, s1⟩ := g
      dsimp only at h1 h2
      subst h1
      exact ⟨_, _, rfl, refused_end bad boom s s1 l xs h hb h2⟩

theorem extendU_good {e : Env} (he : Sane e) (w : User α) (u : USt α) (l : List α) (h : VInv e u.s.v l) (hb : Bal u.s) (xs : List α)
    (lo : Nat) (hi : Option Nat) (boom : Bool) (ha : Args e (.extend xs lo hi)) :
    ∃ r u', ustep w e u (.extend xs lo hi boom) = some (r, u') ∧
      ((r = .aborted ∧ ∃ leak, UGone w u l (.extend xs lo hi boom) u' [] leak) ∨
       (∃ k, k ≤ xs.length ∧ UGood e w u l (.extend xs lo hi boom) r u' (l ++ xs.take k) [] [] ∧
        (r = .done .unit ∧ boom = false ∧ k = xs.length ∨ r = .unwound [] ∧ (boom = true ∧ k = xs.length ∨ u.s.refused < u'.s.refused)))) := by
  classical
  obtain ⟨x, s', e1, e2⟩ := extendU_end he w.bad u.s l h hb xs lo hi boom ha
  refine ⟨x, ⟨s', u.lost⟩, by simp [ustep, withLost, e1], ?_⟩
  rcases e2 with ⟨q1, q2, leak, q3⟩ | ⟨k, q1, q2, q3, q4, q5⟩
  · exact .inl ⟨q1, leak, ⟨by simpa [UOp.ins] using q3, q2, by simp⟩⟩
  · refine .inr ⟨k, q1, ⟨q2, q3, ?_, fun _ _ => ⟨rfl, rfl⟩, by simp, by simp⟩, q5⟩
    have hx : x.outs = [] := by rcases q5 with ⟨a, _⟩ | ⟨a, _⟩ <;> simp [a, Exit.outs]
    rw [hx]; dsimp only [UOp.ins]; rw [q4]
    have := fun a => congrArg (List.count a) (List.take_append_drop k xs)
    rw [List.perm_iff_count]; intro a
    have := this a
    simp only [List.count_append, List.count_nil] at this ⊢
    omega

theorem truncateU_tame (bad : α → Bool) (e : Env) (s : St α) (l : List α) (h : VInv e s.v l) (n : Nat) (ht : ∀ x ∈ l.drop n, bad x = false) :
    truncateU bad s n = (truncate s n).map fun p => (.done .unit, p.2) := by
  unfold truncateU truncate
  rw [h.len]
  split
  · rfl
  · rename_i hn
    obtain ⟨rest, hd⟩ := h.data
    have e0 : (l.drop n).take (l.length - n) = l.drop n := List.take_of_length_le (by simp)
    rw [dropRange_spec s l rest hd n _ (by omega), dropGlue_spec bad false s l rest hd n _ (by omega), e0, glue_all bad false _ ht]
    rfl

theorem truncateU_good {e : Env} (w : User α) (u : USt α) (l : List α) (h : VInv e u.s.v l) (hb : Bal u.s) (n : Nat)
    (ht : ∀ x ∈ l.drop n, w.bad x = false) :
    ∃ u', ustep w e u (.truncate n) = some (.done .unit, u') ∧ UGood e w u l (.truncate n) (.done .unit) u' (l.take n) [] [] := by
  obtain ⟨r, s', l', h1, g⟩ := truncate_step u.s l h hb n
  obtain ⟨g1, g2⟩ := g.spec
  subst g1 g2
  refine ⟨⟨s', u.lost⟩, by simp [ustep, withLost, truncateU_tame w.bad e u.s l h n ht, h1],
    ⟨g.inv, g.bal, by simpa [Exit.outs, outs, UOp.ins, Op.ins] using g.ledger, fun _ _ => ⟨rfl, rfl⟩, by simp, by simp⟩⟩

theorem intoIter_take {e : Env} (s : St α) (l : List α) (h : VInv e s.v l) :
    ∀ k i, i ≤ l.length → IntoIter.take ⟨s, i⟩ k = some ((l.drop i).take k, ⟨s, min (i + k) l.length⟩) := by
  obtain ⟨rest, hd⟩ := h.data
  intro k
  induction k with
  | zero => intro i hi; simp [IntoIter.take, Nat.min_eq_left hi]
  | succ k ih =>
    intro i hi
    by_cases hlt : i < l.length
    · have : IntoIter.next ⟨s, i⟩ = some (some l[i], ⟨s, i + 1⟩) := by
        simp [IntoIter.next, h.len, hlt, read_spec s.v l rest hd i hlt]
      simp only [IntoIter.take, this, Option.bind_eq_bind, Option.bind_some, ih (i + 1) hlt, Option.pure_def]
      rw [List.drop_eq_getElem_cons hlt, List.take_succ_cons, Nat.add_assoc, Nat.add_comm 1 k]
    · have : IntoIter.next ⟨s, i⟩ = some (none, ⟨s, i⟩) := by simp [IntoIter.next, h.len, hlt]
      simp only [IntoIter.take, this, Option.bind_eq_bind, Option.bind_some, ih i hi]
      have : l.drop i = [] := List.drop_eq_nil_of_le (by omega)
      rw [this, List.take_nil, List.take_nil, Nat.min_eq_right (by omega), Nat.min_eq_right (by omega)]

theorem drop_min (l : List α) (k : Nat) : (l.drop (min k l.length)).take (l.length - min k l.length) = l.drop k := by
  rw [List.take_of_length_le (by simp)]
  by_cases hk : k ≤ l.length
  · rw [Nat.min_eq_left hk]
  · rw [Nat.min_eq_right (by omega), List.drop_length, List.drop_eq_nil_of_le (by omega)]

theorem intoIterU_good {e : Env} (w : User α) (u : USt α) (l : List α) (h : VInv e u.s.v l) (hb : Bal u.s) (k : Nat)
    (ht : ∀ x ∈ l.drop k, w.bad x = false) :
    ∃ u', ustep w e u (.intoIter k) = some (.done (.yielded (l.take k)), u') ∧
      UGood e w u l (.intoIter k) (.done (.yielded (l.take k))) u' [] [] [] := by
  classical
  obtain ⟨rest, hd⟩ := h.data
  have hk := intoIter_take u.s l h k 0 (Nat.zero_le _)
  simp only [List.drop_zero, Nat.zero_add] at hk
  have hg := dropGlue_spec w.bad false u.s l rest hd (min k l.length) (l.length - min k l.length) (by omega)
  rw [drop_min, glue_all w.bad false _ ht] at hg
  obtain ⟨f, u', d1, d2, d3, d4, d5, d6, d7, _⟩ := dropVecU_spec (e := e) w.bad false
    ⟨setLen { u.s with dropped := u.s.dropped ++ l.drop k } 0, u.lost⟩ [] (h.setLen 0 rfl ⟨u.s.v.cells, rfl⟩) hb
  simp only [glue] at d2 d5
  subst d2
  refine ⟨u', ?_, ⟨by rw [d3]; exact VInv.new e, d4, ?_, fun _ _ => ⟨rfl, d6 rfl⟩, d7, by simp⟩⟩
  · simp only [ustep, intoIterU, hk, Option.bind_eq_bind, Option.bind_some, h.len, hg, d1, Option.pure_def]
  · rw [d5]; simp only [setLen, Exit.outs, UOp.ins]
    have := fun a => congrArg (List.count a) (List.take_append_drop k l)
    rw [List.perm_iff_count]; intro a
    have := this a
    simp only [List.count_append, List.count_nil] at this ⊢
    omega

/-- Where the range of a `Drain` ends after `k` calls to `next` and possibly `stop`. -/
def drainTo (f t k : Nat) (stop : Bool) : Nat := if stop then min (f + k) t else t

theorem drainU_good {e : Env} (w : User α) (u : USt α) (l : List α) (h : VInv e u.s.v l) (hb : Bal u.s) (f t k : Nat) (stop : Bool) :
    ∃ r u', ustep w e u (.drain f t k stop) = some (r, u') ∧
      ((r = .aborted ∧ ∃ leak, UGone w u l (.drain f t k stop) u' [] leak) ∨
       (¬ (f ≤ t ∧ t ≤ l.length) ∧ r = .unwound [] ∧ UGood e w u l (.drain f t k stop) r u' l [] []) ∨
       ((f ≤ t ∧ t ≤ l.length) ∧ r = .done (.yielded (((l.take t).drop f).take k)) ∧
        UGood e w u l (.drain f t k stop) r u' (l.take f ++ l.drop (drainTo f t k stop)) [] []) ∨
       ((f ≤ t ∧ t ≤ l.length) ∧ r = .unwound (((l.take t).drop f).take k) ∧
        (∃ x ∈ (l.take t).drop (f + k), w.bad x = true) ∧
        UGood e w u l (.drain f t k stop) r u' (l.take f) [] (l.drop (drainTo f t k stop)))) := by
  classical
  by_cases hv : f ≤ t ∧ t ≤ l.length
  · obtain ⟨hft, htl⟩ := hv
    obtain ⟨rest, hd⟩ := h.data
    have hn : drainNew u.s f t = some ⟨setLen u.s f, f, t, f, l.length⟩ := by simp [drainNew, h.len, hft, htl]
    have htk := drain_take (e := e) (setLen u.s f) l rest hd f t l.length htl k f hft
    have hi2 : min (f + k) t ≤ drainTo f t k stop := by unfold drainTo; split <;> omega
    have ht2 : drainTo f t k stop ≤ l.length := by unfold drainTo; split <;> omega
    have hto : drainTo f t k stop ≤ t := by unfold drainTo; split <;> omega
    have hif : (if stop then (⟨setLen u.s f, f, min (f + k) t, min (f + k) t, l.length⟩ : Drain α) else ⟨setLen u.s f, f, t, min (f + k) t, l.length⟩) =
        ⟨setLen u.s f, f, drainTo f t k stop, min (f + k) t, l.length⟩ := by unfold drainTo; cases stop <;> rfl
    generalize hT : drainTo f t k stop = T at *
    have hg := dropGlue_spec w.bad false (setLen u.s f) l rest hd (min (f + k) t) (T - min (f + k) t) (by omega)
    have hmid : l.take f ++ (((l.take t).drop f).take k ++ ((l.drop (min (f + k) t)).take (T - min (f + k) t) ++ l.drop T)) = l := by
      have e1 : (l.drop (min (f + k) t)).take (T - min (f + k) t) = (l.take T).drop (min (f + k) t) := by
        rw [List.drop_take]
      have e2 : (l.take T).drop (min (f + k) t) ++ l.drop T = l.drop (min (f + k) t) := by
        conv => rhs; rw [← List.take_append_drop T l]
        rw [List.drop_append_of_le_length (by simp; omega)]
      have e3 : ((l.take t).drop f).take k = (l.take (min (f + k) t)).drop f := by
        rw [List.take_drop, List.take_take]
      have e4 : l.take f = (l.take (min (f + k) t)).take f := by rw [List.take_take, Nat.min_eq_left (by omega)]
      rw [e1, e2, e3, e4, ← List.append_assoc, List.take_append_drop, List.take_append_drop]
    have hcount := fun a => congrArg (List.count a) hmid
    simp only [List.count_append] at hcount
    have hbadsub : ∀ x ∈ (l.drop (min (f + k) t)).take (T - min (f + k) t), x ∈ (l.take t).drop (f + k) := by
      intro x hx
      rw [← List.drop_take] at hx
      by_cases hk : f + k ≤ t
      · rw [Nat.min_eq_left hk] at hx
        rw [List.drop_take, List.mem_take_iff_getElem] at hx ⊢
        obtain ⟨i, hi, rfl⟩ := hx
        exact ⟨i, by omega, rfl⟩
      · rw [Nat.min_eq_right (by omega), List.drop_eq_nil_of_le (by simp; omega)] at hx
        cases hx
    generalize hmm : (l.drop (min (f + k) t)).take (T - min (f + k) t) = mid at *
    have hstep : ustep w e u (.drain f t k stop) = withLost u (do
        match ← dropGlue w.bad false (setLen u.s f) (min (f + k) t) (T - min (f + k) t) with
        | (.fine, s) => do
          let v ← copyCells s.v T f (l.length - T)
          return (.done (.yielded (((l.take t).drop f).take k)), setLen { s with v := v } (l.length - T + f))
        | (.unwound, s) => return (.unwound (((l.take t).drop f).take k), s)
        | (.aborted, s) => return (.aborted, s)) := by
      simp only [ustep, drainU, hn, htk, Option.bind_eq_bind, Option.bind_some]
      rw [hif]; rfl
    rw [hstep, hg]
    simp only [Option.bind_eq_bind, Option.bind_some]
    cases hf : (glue w.bad false mid).2 with
    | fine =>
      dsimp only
      have hw := glue_whole w.bad false mid (by simp [hf])
      obtain ⟨v1, rest', h1, f1, c1⟩ := copyCells_spec (setLen u.s f).v l rest hd T f (l.length - T) (by omega) (by omega)
      refine ⟨.done (.yielded (((l.take t).drop f).take k)), ⟨setLen { u.s with v := v1, dropped := u.s.dropped ++ mid } (l.length - T + f), u.lost⟩, ?_,
        .inr (.inr (.inl ⟨⟨hft, htl⟩, rfl, ⟨?_, ?_, ?_, fun _ _ => ⟨rfl, rfl⟩, by simp, by simp⟩⟩))⟩
      · simp only [h1, hw, Option.bind_some]; rfl
      · exact VInv.frameLen (h.setLen (l' := l.take f) f (by simp; omega) ⟨(l.drop f).map some ++ rest, by
          rw [hd, ← List.append_assoc, ← List.map_append, List.take_append_drop]⟩) f1 _ (by simp; omega) ⟨rest', c1⟩
      · unfold Bal at *
        show u.s.allocs = u.s.frees + live { v1 with len := _ }
        rw [hb]; congr 1
        show live u.s.v = live v1
        exact (live_frame f1).symm
      · simp only [setLen, Exit.outs, UOp.ins]
        rw [List.perm_iff_count]; intro a
        have := hcount a
        simp only [List.count_append, List.count_nil] at this ⊢
        omega
    | unwound =>
      dsimp only
      have hw := glue_whole w.bad false mid (by simp [hf])
      obtain ⟨x, hx, hbad⟩ := glue_not_fine w.bad false mid (by simp [hf])
      refine ⟨_, _, rfl, .inr (.inr (.inr ⟨⟨hft, htl⟩, rfl, ⟨x, hbadsub x hx, hbad⟩, ⟨?_, hb, ?_, fun r hr => by (cases hr), by simp, by simp⟩⟩))⟩
      · exact h.setLen (l' := l.take f) f (by simp; omega) ⟨(l.drop f).map some ++ rest, by
          rw [hd, ← List.append_assoc, ← List.map_append, List.take_append_drop]⟩
      · rw [hw]; simp only [setLen, Exit.outs, UOp.ins]
        rw [List.perm_iff_count]; intro a
        have := hcount a
        simp only [List.count_append, List.count_nil] at this ⊢
        omega
    | aborted =>
      dsimp only
      obtain ⟨x, hx, hbad⟩ := glue_not_fine w.bad false mid (by simp [hf])
      obtain ⟨r, hr⟩ := glue_prefix w.bad false mid
      refine ⟨_, _, rfl, .inl ⟨rfl, l.take f ++ ((l.take t).drop f).take k ++ r ++ l.drop T, ⟨?_, ⟨x, hbad⟩, by simp⟩⟩⟩
      have hr' := fun a => congrArg (List.count a) hr
      simp only [setLen, UOp.ins]
      rw [List.perm_iff_count]; intro a
      have := hcount a
      have := hr' a
      simp only [List.count_append, List.count_nil] at *
      omega
  · refine ⟨.unwound [], u, ?_, .inr (.inl ⟨hv, rfl, ⟨h, hb, by simp [Exit.outs, UOp.ins], fun r hr => by (cases hr), by simp, by simp⟩⟩)⟩
    simp [ustep, withLost, drainU, drainNew, h.len, hv]

theorem dropU_good {e : Env} (w : User α) (u : USt α) (l : List α) (h : VInv e u.s.v l) (hb : Bal u.s) :
    ∃ r u', ustep w e u .drop = some (r, u') ∧
      ((r = .aborted ∧ ∃ leak, UGone w u l .drop u' [] leak) ∨
       ((∀ x ∈ l, w.bad x = false) ∧ r = .done .unit ∧ u'.s.frees = u.s.frees + live u.s.v ∧ UGood e w u l .drop r u' [] [] []) ∨
       ((∃ x ∈ l, w.bad x = true) ∧ r = .unwound [] ∧ u'.lost = u.lost + live u.s.v ∧ UGood e w u l .drop r u' [] [] [])) := by
  classical
  obtain ⟨f, u', d1, d2, d3, d4, d5, d6, d7, d8, d9⟩ := dropVecU_spec (e := e) w.bad false u l h hb
  simp only [ustep, d1, Option.bind_eq_bind, Option.bind_some]
  cases hf : f with
  | fine =>
    have e1 := d2.symm.trans hf
    refine ⟨_, _, rfl, .inr (.inl ⟨glue_fine _ _ _ e1, rfl, d9 hf, ⟨by rw [d3]; exact VInv.new e, d4, ?_, fun _ _ => ⟨rfl, d6 hf⟩, d7, by simp⟩⟩)⟩
    rw [d5, glue_whole _ _ _ (by simp [e1])]; simp [Exit.outs, UOp.ins]
  | unwound =>
    have e1 := d2.symm.trans hf
    refine ⟨_, _, rfl, .inr (.inr ⟨glue_not_fine w.bad false l (by simp [e1]), rfl, d8 (by simp [hf]),
      ⟨by rw [d3]; exact VInv.new e, d4, ?_, fun r hr => by (cases hr), d7, by simp⟩⟩)⟩
    rw [d5, glue_whole _ _ _ (by simp [e1])]; simp [Exit.outs, UOp.ins]
  | aborted =>
    have e1 := d2.symm.trans hf
    obtain ⟨x, _, hx⟩ := glue_not_fine w.bad false l (by simp [e1])
    obtain ⟨r, hr⟩ := glue_prefix w.bad false l
    refine ⟨_, _, rfl, .inl ⟨rfl, r, ⟨?_, ⟨x, hx⟩, by simp⟩⟩⟩
    rw [d5, List.append_assoc, ← hr]; simp [UOp.ins]

theorem clones_mem (cl : α → Option α) (l : List α) : ∀ y ∈ (clones cl l).1, ∃ z, cl z = some y := by
  induction l with
  | nil => simp [clones]
  | cons x xs ih =>
    simp only [clones]
    cases h : cl x with
    | none => simp
    | some y => simpa using ⟨⟨x, h⟩, ih⟩

theorem clones_le (cl : α → Option α) (l : List α) : (clones cl l).1.length ≤ l.length := by
  induction l with
  | nil => simp [clones]
  | cons x xs ih =>
    simp only [clones]
    cases h : cl x <;> simp [ih]

theorem clones_len (cl : α → Option α) (l : List α) (h : (clones cl l).2 = true) : (clones cl l).1.length = l.length := by
  induction l with
  | nil => simp [clones]
  | cons x xs ih =>
    simp only [clones] at *
    cases hx : cl x with
    | none => simp [hx] at h
    | some y => simp only [hx] at h; simp [ih h]

theorem cloneU_good {e : Env} (he : Sane e) (w : User α) (u : USt α) (l : List α) (h : VInv e u.s.v l) (hb : Bal u.s) :
    ∃ r u' made, ustep w e u .clone = some (r, u') ∧ (made = [] ∨ made = (clones w.cl l).1) ∧
      ((r = .aborted ∧ ∃ leak, UGone w u l .clone u' made leak) ∨
       (r = .done .unit ∧ (clones w.cl l).2 = true ∧ UGood e w u l .clone r u' l made []) ∨
       (r = .unwound [] ∧ ∃ leak, (leak = [] ∨ (clones w.cl l).2 = false ∧ leak = made) ∧ UGood e w u l .clone r u' l made leak)) := by
  classical
  have hbound : e.esz * u.s.v.len < 9223372036854775808 := by
    have := h.bound
    have := Nat.mul_le_mul_left e.esz h.le
    rw [h.len]; omega
  have hb0 : Bal { u.s with v := Vec.new, frees := u.s.frees + live u.s.v } := by
    unfold Bal at *; simp only [live, Vec.new, if_true]; exact hb
  have comm : tryReserve e { u.s with v := Vec.new, frees := u.s.frees + live u.s.v } u.s.v.len =
      ((tryReserve e { u.s with v := Vec.new } u.s.v.len).1,
       { (tryReserve e { u.s with v := Vec.new } u.s.v.len).2 with frees := u.s.frees + live u.s.v }) := by
    unfold tryReserve
    dsimp only
    split
    · split <;> rfl
    · rfl
  have frees : (tryReserve e { u.s with v := Vec.new } u.s.v.len).2.frees = u.s.frees := by
    unfold tryReserve
    dsimp only
    split
    · split <;> rfl
    · rfl
  have spec := tryReserve_spec he { u.s with v := Vec.new, frees := u.s.frees + live u.s.v } [] (VInv.new e) hb0 u.s.v.len hbound
  rw [comm] at spec
  obtain ⟨rest, hd⟩ := h.data
  simp only [ustep, cloneU]
  generalize tryReserve e { u.s with v := Vec.new } u.s.v.len = g at *
  obtain ⟨b, r⟩ := g
  dsimp only at spec frees
  rcases spec with ⟨h1, r1⟩ | ⟨h1, h2⟩
  · subst h1
    dsimp only
    rw [h.len, slice_spec u.s.v l rest hd _ _ (by omega)]
    simp only [List.drop_zero, List.take_length, Option.bind_eq_bind, Option.bind_some]
    have i1 := r1.inv
    have rm := r1.room
    have d1 := r1.dropped
    have b1 := r1.bal
    dsimp only at i1 rm d1
    have hle := clones_le w.cl l
    obtain ⟨v', w1, w2, w3⟩ := writeTail r.v [] (clones w.cl l).1 i1 (by rw [h.len] at rm; omega)
    have hl0 : r.v.len = 0 := i1.len
    rw [hl0] at w1
    simp only [w1, Option.bind_some, List.nil_append, hl0, Nat.zero_add] at w2 ⊢
    have hlive : live v' = live r.v := live_frame w3
    cases hc : (clones w.cl l).2 with
    | true =>
      have hlen := clones_len w.cl l hc
      rw [hlen] at w2
      -- the copy is dropped
      obtain ⟨f, u', q1, q2, q3, q4, q5, q6, q7, _, _⟩ := dropVecU_spec (e := e) w.bad false
        ⟨{ setLen { r with v := v' } l.length with frees := u.s.frees + live u.s.v }, u.lost⟩ (clones w.cl l).1 w2
        (by unfold Bal at b1 ⊢; dsimp only [setLen] at b1 ⊢; rw [b1]; show _ = _ + live v'; rw [hlive])
      have hcomm : dropVecU w.bad false ⟨setLen { r with v := v' } l.length, u.lost⟩ =
          (dropVecU w.bad false ⟨{ setLen { r with v := v' } l.length with frees := u.s.frees + live u.s.v }, u.lost⟩).map
            fun p => (p.1, ⟨{ p.2.s with frees := p.2.s.frees - live u.s.v }, p.2.lost⟩) := by
        simp only [dropVecU, dropGlue, setLen, Option.bind_eq_bind]
        cases hsl : slice ({ block := v'.block, len := l.length, cap := v'.cap } : Vec α) 0 l.length with
        | none => rfl
        | some xs =>
          simp only [Option.bind_some, Option.pure_def]
          cases (glue w.bad false xs).2 with
          | fine =>
            dsimp only
            split
            · simp only [free]
              cases v'.block with
              | none => rfl
              | some blk => simp [frees]; omega
            · simp [frees]
          | unwound => dsimp only; split <;> simp [frees]
          | aborted => dsimp only; split <;> simp [frees]
      rw [if_pos rfl, hcomm, q1]
      simp only [Option.map_some, Option.bind_some]
      have hfre : live u.s.v ≤ u'.s.frees := by
        simp only [dropVecU, dropGlue, setLen, Option.bind_eq_bind] at q1
        cases hsl : slice ({ block := v'.block, len := l.length, cap := v'.cap } : Vec α) 0 l.length with
        | none => simp [hsl] at q1
        | some xs =>
          simp only [hsl, Option.bind_some, Option.pure_def] at q1
          cases hgl : (glue w.bad false xs).2 with
          | fine =>
            simp only [hgl] at q1
            split at q1
            · simp only [free] at q1
              cases hblk : v'.block with
              | none => simp [hblk] at q1
              | some blk => simp [hblk] at q1; rw [← q1.2]; dsimp only; omega
            · simp at q1; rw [← q1.2]; dsimp only; omega
          | unwound => simp only [hgl] at q1; split at q1 <;> (simp at q1; rw [← q1.2]; dsimp only; omega)
          | aborted => simp only [hgl] at q1; split at q1 <;> (simp at q1; rw [← q1.2]; dsimp only; omega)
      have hbal : Bal { u'.s with frees := u'.s.frees - live u.s.v, v := u.s.v } := by
        unfold Bal at q4 ⊢; rw [q3] at q4; simp only [live, Vec.new, if_true] at q4 hfre ⊢; omega
      dsimp only [setLen] at q5 q6 q7
      rw [d1] at q5
      cases hf : f with
      | fine =>
        have e1 := q2.symm.trans hf
        rw [glue_whole _ _ _ (by simp [e1])] at q5
        refine ⟨_, _, (clones w.cl l).1, rfl, .inr rfl, .inr (.inl ⟨rfl, by simp, ⟨h, hbal, ?_, fun _ _ => ⟨rfl, q6 hf⟩, q7,
          fun y hy => ⟨rfl, clones_mem w.cl l y hy⟩⟩⟩)⟩
        dsimp only [Exit.outs, UOp.ins]; rw [q5]; perm_count
      | unwound =>
        have e1 := q2.symm.trans hf
        rw [glue_whole _ _ _ (by simp [e1])] at q5
        refine ⟨_, _, (clones w.cl l).1, rfl, .inr rfl, .inr (.inr ⟨rfl, [], .inl rfl, ⟨h, hbal, ?_, fun r hr => by (cases hr), q7,
          fun y hy => ⟨rfl, clones_mem w.cl l y hy⟩⟩⟩)⟩
        dsimp only [Exit.outs, UOp.ins]; rw [q5]; perm_count
      | aborted =>
        have e1 := q2.symm.trans hf
        obtain ⟨x, _, hx⟩ := glue_not_fine w.bad false (clones w.cl l).1 (by simp [e1])
        obtain ⟨rr, hr⟩ := glue_prefix w.bad false (clones w.cl l).1
        refine ⟨_, _, (clones w.cl l).1, rfl, .inr rfl, .inl ⟨rfl, rr ++ l, ⟨?_, ⟨x, hx⟩, fun y hy => ⟨rfl, clones_mem w.cl l y hy⟩⟩⟩⟩
        dsimp only [UOp.ins]; rw [q5]
        have hr' := fun a => congrArg (List.count a) hr
        rw [List.perm_iff_count]; intro a
        have := hr' a
        simp only [List.count_append, List.count_nil] at *
        omega
    | false =>
      -- the block is released, the clones made so far are lost
      rw [if_neg (by simp)]
      have hv' : VInv e v' [] := i1.of_frame w3 (by rw [w3.len]; exact hl0) ⟨v'.cells, rfl⟩
      have hdl : dropGlue w.bad true { r with v := v' } 0 0 = some (.fine, { r with v := v' }) := by
        simp [dropGlue, slice, glue]
      have hl' : v'.len = 0 := by rw [w3.len]; exact hl0
      have hbk := hv'.blk
      unfold Bal at b1
      dsimp only at b1
      rw [← hlive] at b1
      have ub := hb
      unfold Bal at ub
      have key : ∃ r2, dropVecU w.bad true ⟨{ r with v := v' }, u.lost⟩ = some (.fine, ⟨r2, u.lost⟩) ∧ r2.dropped = r.dropped ∧
          r2.allocs = r.allocs ∧ r2.frees = r.frees + live v' := by
        simp only [dropVecU, hl', hdl, Option.bind_eq_bind, Option.bind_some]
        by_cases hcap : v'.cap = 0
        · rw [if_neg (by simp [hcap])]
          exact ⟨_, rfl, rfl, rfl, by simp [live, hcap]⟩
        · rw [if_pos hcap]
          simp only [free]
          cases hblk : v'.block with
          | none => simp [hblk, hcap] at hbk
          | some blk => exact ⟨_, rfl, rfl, rfl, by simp [live, hcap]⟩
      obtain ⟨r2, k1, k2, k3, k4⟩ := key
      rw [k1]
      refine ⟨_, _, (clones w.cl l).1, rfl, .inr rfl, .inr (.inr ⟨rfl, (clones w.cl l).1, .inr ⟨by simp, rfl⟩, ⟨h, ?_, ?_, fun r hr => by (cases hr), by simp,
          fun y hy => ⟨rfl, clones_mem w.cl l y hy⟩⟩⟩)⟩
      · unfold Bal; dsimp only; omega
      · dsimp only [Exit.outs, UOp.ins]; rw [k2, d1]; perm_count
  · subst h1
    have hr := h2
    obtain ⟨a1, a2, a3, a4, a5, a6, a7⟩ := r
    dsimp only at h2 frees
    injection h2 with c1 c2 c3 c4 c5 c6 c7
    refine ⟨_, _, [], rfl, .inl rfl, .inr (.inr ⟨rfl, [], .inl rfl, ⟨h, ?_, ?_, fun r hr => by (cases hr), by simp, by simp⟩⟩)⟩
    · unfold Bal at *; dsimp only; rw [c4, frees]; exact hb
    · dsimp only [Exit.outs, UOp.ins]; rw [c2]; simp

end Verif.Vec
