import Verif.Vec.Lemmas
import Verif.Vec.Spec

namespace Verif.Vec
variable {α : Type}

/-- What is proved of each operation. -/
structure Good (e : Env) (s : St α) (l : List α) (op : Op α) (r : Res α) (s' : St α) (l' : List α) : Prop where
  inv : VInv e s'.v l'
  bal : Bal s'
  mono : s.refused ≤ s'.refused
  spec : Spec op (decide (s'.refused ≠ s.refused)) l r l'
  ledger : (s'.dropped ++ outs op r ++ l').Perm (s.dropped ++ op.ins ++ l)

theorem VInv.of_frame {e : Env} {v v' : Vec α} {l l' : List α} (h : VInv e v l) (f : Frame v v')
    (hl : v'.len = l'.length) (hd : ∃ rest, v'.cells = l'.map some ++ rest) : VInv e v' l' :=
  ⟨hl, hd, by rw [f.size, f.cap, h.size], by rw [f.blk, f.cap, h.blk], by rw [f.cap]; exact h.bound⟩

theorem VInv.setLen {e : Env} {v : Vec α} {l l' : List α} (h : VInv e v l) (n : Nat)
    (hl : n = l'.length) (hd : ∃ rest, v.cells = l'.map some ++ rest) : VInv e { v with len := n } l' :=
  ⟨hl, hd, h.size, h.blk, h.bound⟩

theorem VInv.frameLen {e : Env} {v v' : Vec α} {l l' : List α} (h : VInv e v l) (f : Frame v v') (n : Nat)
    (hl : n = l'.length) (hd : ∃ rest, v'.cells = l'.map some ++ rest) : VInv e { v' with len := n } l' :=
  ⟨hl, hd, by show v'.cells.length = v'.cap; rw [f.size, f.cap, h.size],
    by show v'.block.isSome = decide (v'.cap ≠ 0); rw [f.blk, f.cap, h.blk], by show e.esz * v'.cap + 32 < _; rw [f.cap]; exact h.bound⟩

theorem live_frame {v v' : Vec α} (f : Frame v v') : live v' = live v := by unfold live; rw [f.cap]

theorem pushRaw_spec {e : Env} (s : St α) (l : List α) (h : VInv e s.v l) (hr : 1 ≤ s.v.cap - l.length) (x : α) :
    ∃ v', pushRaw s x = some { s with v := v' } ∧ VInv e v' (l ++ [x]) ∧ live v' = live s.v := by
  obtain ⟨rest, hd⟩ := h.data
  have hsz := h.size
  have hle := h.le
  obtain ⟨v1, h1, f1, c1⟩ := write_spec s.v s.v.len x (by rw [h.len, hsz]; omega)
  refine ⟨{ v1 with len := v1.len + 1 }, by simp [pushRaw, h1], ?_, ?_⟩
  · have hne : rest ≠ [] := by
      intro h0; rw [hd, h0] at hsz; simp at hsz; omega
    refine VInv.setLen (l := l) (h.of_frame f1 (by rw [f1.len, h.len]) ?_) _ (by rw [f1.len, h.len]; simp) ?_
    · refine ⟨v1.cells.drop l.length, ?_⟩
      rw [c1, h.len]
      conv => lhs; rw [← List.take_append_drop l.length (s.v.cells.set l.length (some x))]
      congr 1
      rw [List.take_set_of_le (Nat.le_refl _), hd]; simp
    · refine ⟨rest.drop 1, ?_⟩
      rw [c1, hd, h.len]
      cases rest with
      | nil => exact absurd rfl hne
      | cons r rest => simp [List.set_append]
  · exact live_frame (v' := v1) f1

theorem tryGrow_spec {e : Env} (he : Sane e) (s : St α) (l : List α) (h : VInv e s.v l) (hb : Bal s) :
    ((tryGrow e s).1 = true ∧ Reserved e s (tryGrow e s).2 l 1) ∨
    ((tryGrow e s).1 = false ∧ (tryGrow e s).2 = { s with tries := s.tries + 1, refused := s.refused + 1 }) := by
  have key : ∀ a, 1 ≤ a → e.esz * a < 9223372036854775808 →
      ((tryReserve e s a).1 = true ∧ Reserved e s (tryReserve e s a).2 l 1) ∨
      ((tryReserve e s a).1 = false ∧ (tryReserve e s a).2 = { s with tries := s.tries + 1, refused := s.refused + 1 }) := by
    intro a h1 ha
    rcases tryReserve_spec he s l h hb a ha with ⟨h2, r⟩ | h2
    · exact .inl ⟨h2, { r with room := by have := r.room; omega }⟩
    · exact .inr h2
  unfold tryGrow
  split
  · exact key _ (firstCapacity_pos e).1 (firstCapacity_size he)
  · apply key _ (by omega)
    rename_i hc
    have hbd := h.bound
    have : e.esz * max (s.v.cap / 2) 1 ≤ e.esz * s.v.cap := Nat.mul_le_mul_left _ (by omega)
    omega

theorem push_step {e : Env} (he : Sane e) (s : St α) (l : List α) (h : VInv e s.v l) (hb : Bal s) (x : α) :
    ∃ r s' l', push e s x = some (r, s') ∧ Good e s l (.push x) r s' l' ∧
      (r = .unit ∧ l' = l ++ [x] ∧ s'.dropped = s.dropped ∧ s'.refused = s.refused ∨ r = .panic ∧ l' = l ∧ s'.dropped = s.dropped ++ [x] ∧
        s'.refused = s.refused + 1) := by
  have fin : ∀ s1 : St α, Reserved e s s1 l 1 → ∃ r s' l', (do return (Res.unit, ← pushRaw s1 x)) = some (r, s') ∧
      Good e s l (.push x) r s' l' ∧ (r = .unit ∧ l' = l ++ [x] ∧ s'.dropped = s.dropped ∧ s'.refused = s.refused ∨
        r = .panic ∧ l' = l ∧ s'.dropped = s.dropped ++ [x] ∧ s'.refused = s.refused + 1) := by
    intro s1 r1
    obtain ⟨v', h1, i1, lv⟩ := pushRaw_spec s1 l r1.inv r1.room x
    refine ⟨.unit, { s1 with v := v' }, l ++ [x], by rw [h1]; rfl, ⟨i1, ?_, ?_, ?_, ?_⟩, .inl ⟨rfl, rfl, r1.dropped, r1.refused⟩⟩
    · have := r1.bal; unfold Bal at *; rw [lv]; exact this
    · exact Nat.le_of_eq r1.refused.symm
    · simp [Spec, r1.refused]
    · simp only [outs, Op.ins, r1.dropped, List.append_nil, List.append_assoc]
      exact List.Perm.append_left _ (List.perm_append_comm)
  unfold push
  split
  · rcases tryGrow_spec he s l h hb with ⟨h1, r1⟩ | ⟨h1, h2⟩
    · generalize hg : tryGrow e s = g at *
      obtain ⟨b, s1⟩ := g
      subst h1
      exact fin s1 r1
    · generalize hg : tryGrow e s = g at *
      obtain ⟨b, s1⟩ := g
      dsimp only at h1 h2
      subst h1 h2
      refine ⟨_, _, l, rfl, ⟨h, hb, Nat.le_succ _, by simp [Spec], ?_⟩, .inr ⟨rfl, rfl, rfl, rfl⟩⟩
      simp [outs, Op.ins]
  · rename_i hne
    refine fin s ⟨h, ?_, hb, rfl, rfl, rfl⟩
    have := h.le; rw [h.len] at hne; omega

theorem tryPush_step {e : Env} (he : Sane e) (s : St α) (l : List α) (h : VInv e s.v l) (hb : Bal s) (x : α) :
    ∃ r s' l', tryPush e s x = some (r, s') ∧ Good e s l (.tryPush x) r s' l' := by
  have fin : ∀ s1 : St α, Reserved e s s1 l 1 → ∃ r s' l', (do return (Res.unit, ← pushRaw s1 x)) = some (r, s') ∧
      Good e s l (.tryPush x) r s' l' := by
    intro s1 r1
    obtain ⟨v', h1, i1, lv⟩ := pushRaw_spec s1 l r1.inv r1.room x
    refine ⟨.unit, { s1 with v := v' }, l ++ [x], by rw [h1]; rfl, ⟨i1, ?_, ?_, ?_, ?_⟩⟩
    · have := r1.bal; unfold Bal at *; rw [lv]; exact this
    · exact Nat.le_of_eq r1.refused.symm
    · simp [Spec, r1.refused]
    · simp only [outs, Op.ins, r1.dropped, List.append_nil, List.append_assoc]
      exact List.Perm.append_left _ (List.perm_append_comm)
  unfold tryPush
  split
  · rcases tryGrow_spec he s l h hb with ⟨h1, r1⟩ | ⟨h1, h2⟩
    · generalize hg : tryGrow e s = g at *
      obtain ⟨b, s1⟩ := g
      subst h1
      exact fin s1 r1
    · generalize hg : tryGrow e s = g at *
      obtain ⟨b, s1⟩ := g
      dsimp only at h1 h2
      subst h1 h2
      refine ⟨_, _, l, rfl, ⟨h, hb, Nat.le_succ _, by simp [Spec], ?_⟩⟩
      simp [outs, Op.ins]
  · rename_i hne
    refine fin s ⟨h, ?_, hb, rfl, rfl, rfl⟩
    have := h.le; rw [h.len] at hne; omega

theorem dropRange_spec (s : St α) (l : List α) (rest) (hc : s.v.cells = l.map some ++ rest) (i n : Nat) (h : i + n ≤ l.length) :
    dropRange s i n = some { s with dropped := s.dropped ++ (l.drop i).take n } := by
  simp [dropRange, slice_spec s.v l rest hc n i h]

theorem pop_step {e : Env} (s : St α) (l : List α) (h : VInv e s.v l) (hb : Bal s) :
    ∃ r s' l', pop s = some (r, s') ∧ Good e s l .pop r s' l' := by
  unfold pop
  split
  · rename_i h0
    rw [h.len, List.length_eq_zero_iff] at h0
    subst h0
    exact ⟨_, _, [], rfl, h, hb, Nat.le_refl _, ⟨rfl, rfl⟩, by simp [outs, Op.ins]⟩
  · rename_i h0
    rw [h.len] at h0
    obtain ⟨rest, hd⟩ := h.data
    have hne : l ≠ [] := by intro h1; subst h1; exact h0 rfl
    have hlast : l.length - 1 < l.length := by omega
    have hr : read s.v (s.v.len - 1) = some (l.getLast hne) := by
      rw [h.len, read_spec s.v l rest hd _ hlast, List.getLast_eq_getElem]
    refine ⟨.moved (some (l.getLast hne)), setLen s (s.v.len - 1), l.dropLast, by simp [hr], ?_, hb, Nat.le_refl _, ?_, ?_⟩
    · refine h.setLen _ (by rw [h.len]; simp) ⟨some (l.getLast hne) :: rest, ?_⟩
      rw [hd]
      conv => lhs; rw [← List.dropLast_concat_getLast hne]
      simp
    · simp [Spec, List.getLast?_eq_some_getLast hne]
    · simp only [outs, Op.ins, List.append_nil, setLen, List.append_assoc]
      apply List.Perm.append_left
      refine List.Perm.trans List.perm_append_comm ?_
      rw [List.dropLast_concat_getLast hne]

theorem remove_step {e : Env} (s : St α) (l : List α) (h : VInv e s.v l) (hb : Bal s) (i : Nat) :
    ∃ r s' l', remove s i = some (r, s') ∧ Good e s l (.remove i) r s' l' := by
  unfold remove
  rw [h.len]
  split
  · rename_i hi
    obtain ⟨rest, hd⟩ := h.data
    obtain ⟨v1, rest', h1, f1, c1⟩ := copyCells_spec s.v l rest hd (i + 1) i (l.length - (i + 1)) (by omega) (by omega)
    refine ⟨.moved (some l[i]), setLen { s with v := v1 } (v1.len - 1), l.eraseIdx i, ?_, ?_, ?_, Nat.le_refl _, ?_, ?_⟩
    · rw [read_spec s.v l rest hd i hi]
      simp only [h1]; rfl
    · rw [List.eraseIdx_eq_take_drop_succ]
      refine h.frameLen f1 _ ?_ ⟨rest', c1⟩
      rw [f1.len, h.len]; simp; omega
    · unfold Bal live at *
      simp only [setLen, f1.cap]; exact hb
    · simp [Spec, hi]
    · simp only [outs, Op.ins, List.append_nil, setLen, List.append_assoc]
      apply List.Perm.append_left
      rw [List.eraseIdx_eq_take_drop_succ]
      refine (List.perm_middle (a := l[i]) (l₁ := l.take i) (l₂ := l.drop (i + 1))).symm.trans ?_
      rw [← List.drop_eq_getElem_cons hi, List.take_append_drop]
  · rename_i hi
    refine ⟨_, _, l, rfl, h, hb, Nat.le_refl _, ?_, by simp [outs, Op.ins]⟩
    simp [Spec, List.getElem?_eq_none (Nat.le_of_not_lt hi), List.eraseIdx_of_length_le (Nat.le_of_not_lt hi)]

theorem swap_cells {e : Env} (s : St α) (l : List α) (h : VInv e s.v l) (i j : Nat) (hi : i < l.length) (hj : j < l.length) :
    ∃ v', swap s i j = some (.unit, { s with v := v' }) ∧ VInv e v' ((l.set i l[j]).set j l[i]) ∧ live v' = live s.v ∧ v'.len = s.v.len := by
  obtain ⟨rest, hd⟩ := h.data
  have hl : s.v.cells.length = l.length + rest.length := by simp [hd]
  obtain ⟨v1, h1, f1, c1⟩ := write_spec s.v i l[j] (by omega)
  obtain ⟨v2, h2, f2, c2⟩ := write_spec v1 j l[i] (by rw [f1.size]; omega)
  have f := f1.trans f2
  refine ⟨v2, ?_, ?_, live_frame f, f.len⟩
  · unfold swap
    rw [h.len, if_pos ⟨hi, hj⟩, read_spec s.v l rest hd i hi, read_spec s.v l rest hd j hj]
    simp only [Option.bind_eq_bind, Option.bind_some, h1, h2, Option.pure_def]
  · refine h.of_frame f (by rw [f.len, h.len]; simp) ⟨rest, ?_⟩
    rw [c2, c1, hd]
    simp [List.set_append, hi, hj, List.map_set]

theorem swap_perm (l : List α) (i j : Nat) (hi : i < l.length) (hj : j < l.length) : ((l.set i l[j]).set j l[i]).Perm l :=
  List.set_set_perm hi hj

theorem swap_step {e : Env} (s : St α) (l : List α) (h : VInv e s.v l) (hb : Bal s) (i j : Nat) :
    ∃ r s' l', swap s i j = some (r, s') ∧ Good e s l (.swap i j) r s' l' := by
  by_cases hij : i < l.length ∧ j < l.length
  · obtain ⟨v', h1, i1, lv, _⟩ := swap_cells s l h i j hij.1 hij.2
    refine ⟨_, _, _, h1, i1, ?_, Nat.le_refl _, ?_, ?_⟩
    · unfold Bal at *; rw [hb, lv]
    · simp [Spec, hij]
    · simp only [outs, Op.ins, List.append_nil]
      exact List.Perm.append_left _ (swap_perm l i j hij.1 hij.2)
  · refine ⟨.panic, s, l, ?_, h, hb, Nat.le_refl _, ?_, ?_⟩
    · unfold swap; rw [h.len, if_neg hij]
    · simp [Spec, hij]
    · simp [outs, Op.ins]

theorem swapRemove_step {e : Env} (s : St α) (l : List α) (h : VInv e s.v l) (hb : Bal s) (i : Nat) :
    ∃ r s' l', swapRemove s i = some (r, s') ∧ Good e s l (.swapRemove i) r s' l' := by
  by_cases hi : i < l.length
  · have hj : l.length - 1 < l.length := by omega
    obtain ⟨v', h1, i1, lv, hlen⟩ := swap_cells s l h i (l.length - 1) hi hj
    have hb1 : Bal { s with v := v' } := by unfold Bal at *; rw [hb, lv]
    obtain ⟨r, s2, l2, h2, g⟩ := pop_step { s with v := v' } _ i1 hb1
    refine ⟨r, s2, l2, ?_, g.inv, g.bal, g.mono, ?_, ?_⟩
    · unfold swapRemove
      rw [h.len, if_neg (by omega), h1]
      exact h2
    · obtain ⟨hr, hl⟩ := g.spec
      subst hr hl
      refine ⟨?_, ?_⟩
      · rw [List.getLast?_eq_getElem?]; simp [hi, hj]
      · rw [dif_pos hi, List.dropLast_eq_take, List.dropLast_eq_take]
        simp only [List.length_set]
        rw [List.take_set_of_le (Nat.le_refl _)]
    · have := g.ledger
      obtain ⟨hr, hl⟩ := g.spec
      subst hr
      have e1 : outs (.swapRemove i) (Res.moved ((l.set i l[l.length - 1]).set (l.length - 1) l[i]).getLast?) =
          outs .pop (Res.moved ((l.set i l[l.length - 1]).set (l.length - 1) l[i]).getLast?) := by
        cases ((l.set i l[l.length - 1]).set (l.length - 1) l[i]).getLast? <;> rfl
      rw [e1]
      refine this.trans ?_
      simp only [Op.ins, List.append_nil]
      exact List.Perm.append_left _ (swap_perm l i _ hi hj)
  · refine ⟨.moved none, s, l, ?_, h, hb, Nat.le_refl _, ?_, ?_⟩
    · unfold swapRemove; rw [h.len, if_pos (by omega)]
    · simp [Spec, hi]
    · simp [outs, Op.ins]

theorem truncate_step {e : Env} (s : St α) (l : List α) (h : VInv e s.v l) (hb : Bal s) (n : Nat) :
    ∃ r s' l', truncate s n = some (r, s') ∧ Good e s l (.truncate n) r s' l' := by
  unfold truncate
  rw [h.len]
  split
  · rename_i hn
    exact ⟨_, _, l, rfl, h, hb, Nat.le_refl _, ⟨rfl, (List.take_of_length_le hn).symm⟩, by simp [outs, Op.ins]⟩
  · rename_i hn
    obtain ⟨rest, hd⟩ := h.data
    rw [dropRange_spec s l rest hd n _ (by omega)]
    refine ⟨_, _, l.take n, rfl, ?_, hb, Nat.le_refl _, ⟨rfl, rfl⟩, ?_⟩
    · refine h.setLen _ (by simp; omega) ⟨(l.drop n).map some ++ rest, ?_⟩
      show s.v.cells = _
      rw [hd, ← List.append_assoc, ← List.map_append, List.take_append_drop]
    · simp only [outs, Op.ins, List.append_nil, setLen, List.append_assoc]
      apply List.Perm.append_left
      rw [List.take_of_length_le (by simp)]
      refine List.perm_append_comm.trans ?_
      rw [List.take_append_drop]

theorem asSlice_step {e : Env} (s : St α) (l : List α) (h : VInv e s.v l) (hb : Bal s) :
    ∃ r s' l', asSlice s = some (r, s') ∧ Good e s l .asSlice r s' l' := by
  obtain ⟨rest, hd⟩ := h.data
  unfold asSlice
  rw [h.len, slice_spec s.v l rest hd _ _ (by omega)]
  exact ⟨_, _, l, rfl, h, hb, Nat.le_refl _, ⟨by simp, rfl⟩, by simp [outs, Op.ins]⟩

theorem index_step {e : Env} (s : St α) (l : List α) (h : VInv e s.v l) (hb : Bal s) (i : Nat) :
    ∃ r s' l', index s i = some (r, s') ∧ Good e s l (.index i) r s' l' := by
  obtain ⟨rest, hd⟩ := h.data
  unfold index
  rw [h.len, slice_spec s.v l rest hd _ _ (by omega)]
  simp only [Option.bind_eq_bind, Option.bind_some, List.drop_zero, List.take_length]
  cases hi : l[i]? with
  | none => exact ⟨_, _, l, rfl, h, hb, Nat.le_refl _, by simp [Spec, hi], by simp [outs, Op.ins]⟩
  | some x => exact ⟨_, _, l, rfl, h, hb, Nat.le_refl _, by simp [Spec, hi], by simp [outs, Op.ins]⟩

theorem reserve_step {e : Env} (he : Sane e) (s : St α) (l : List α) (h : VInv e s.v l) (hb : Bal s) (n : Nat)
    (hn : e.esz * n < 9223372036854775808) : ∃ r s' l', reserve e s n = some (r, s') ∧ Good e s l (.reserve n) r s' l' ∧
      s'.dropped = s.dropped ∧ (r = .unit ∧ n ≤ s'.v.cap - l.length ∨ r = .panic ∧ s'.v = s.v) := by
  unfold reserve
  rcases tryReserve_spec he s l h hb n hn with ⟨h1, r1⟩ | ⟨h1, h2⟩
  · generalize tryReserve e s n = g at *
    obtain ⟨b, s1⟩ := g
    dsimp only at h1 r1
    subst h1
    refine ⟨_, _, l, rfl, ⟨r1.inv, r1.bal, Nat.le_of_eq r1.refused.symm, ?_, ?_⟩, r1.dropped, .inl ⟨rfl, r1.room⟩⟩
    · simp [Spec, r1.refused]
    · simp [outs, Op.ins, r1.dropped]
  · generalize tryReserve e s n = g at *
    obtain ⟨b, s1⟩ := g
    dsimp only at h1 h2
    subst h1 h2
    exact ⟨_, _, l, rfl, ⟨h, hb, Nat.le_succ _, by simp [Spec], by simp [outs, Op.ins]⟩, rfl, .inr ⟨rfl, rfl⟩⟩

theorem tryReserve_step {e : Env} (he : Sane e) (s : St α) (l : List α) (h : VInv e s.v l) (hb : Bal s) (n : Nat)
    (hn : e.esz * n < 9223372036854775808) :
    ∃ r s' l', tryReserveOp e s n = some (r, s') ∧ Good e s l (.tryReserve n) r s' l' := by
  unfold tryReserveOp
  rcases tryReserve_spec he s l h hb n hn with ⟨h1, r1⟩ | ⟨h1, h2⟩
  · generalize tryReserve e s n = g at *
    obtain ⟨b, s1⟩ := g
    dsimp only at h1 r1
    subst h1
    refine ⟨_, _, l, rfl, r1.inv, r1.bal, Nat.le_of_eq r1.refused.symm, ?_, ?_⟩
    · simp [Spec, r1.refused]
    · simp [outs, Op.ins, r1.dropped]
  · generalize tryReserve e s n = g at *
    obtain ⟨b, s1⟩ := g
    dsimp only at h1 h2
    subst h1 h2
    exact ⟨_, _, l, rfl, h, hb, Nat.le_succ _, by simp [Spec], by simp [outs, Op.ins]⟩

theorem writeTail {e : Env} (v : Vec α) (l xs : List α) (h : VInv e v l) (hr : xs.length ≤ v.cap - l.length) :
    ∃ v', writeAll v v.len xs = some v' ∧ VInv e { v' with len := v.len + xs.length } (l ++ xs) ∧ Frame v v' := by
  obtain ⟨rest, hd⟩ := h.data
  have hsz := h.size
  have hl : v.cells.length = l.length + rest.length := by simp [hd]
  obtain ⟨v', h1, f, c⟩ := writeAll_spec v xs (l.map some) rest hd (by omega)
  refine ⟨v', by rw [h.len]; simpa using h1, ?_, f⟩
  exact h.frameLen f _ (by rw [h.len]; simp) ⟨_, by rw [c, List.map_append]⟩

theorem copyExtend_step {e : Env} (he : Sane e) (s : St α) (l : List α) (h : VInv e s.v l) (hb : Bal s) (xs : List α)
    (hn : e.esz * xs.length < 9223372036854775808) :
    ∃ r s' l', tryCopyExtend e s xs = some (r, s') ∧ Good e s l (.copyExtend xs) r s' l' := by
  unfold tryCopyExtend
  cases xs with
  | nil => exact ⟨_, _, l, rfl, h, hb, Nat.le_refl _, by simp [Spec], by simp [outs, Op.ins]⟩
  | cons x xs =>
    generalize hx : x :: xs = ys at *
    split
    · rename_i h0; rw [h0] at hx; cases hx
    rcases tryReserve_spec he s l h hb ys.length hn with ⟨h1, r1⟩ | ⟨h1, h2⟩
    · generalize tryReserve e s ys.length = g at *
      obtain ⟨b, s1⟩ := g
      dsimp only at h1 r1
      subst h1
      obtain ⟨v', w1, w2, w3⟩ := writeTail s1.v l ys r1.inv r1.room
      refine ⟨.unit, { s1 with v := { v' with len := s1.v.len + ys.length } }, l ++ ys, ?_, w2, ?_, Nat.le_of_eq r1.refused.symm, ?_, ?_⟩
      · simp [w1]
      · have := r1.bal; unfold Bal live at *; dsimp only; rw [w3.cap]; exact this
      · simp [Spec, r1.refused]
      · simp only [outs, Op.ins, r1.dropped, List.append_nil, List.append_assoc]
        exact List.Perm.append_left _ List.perm_append_comm
    · generalize tryReserve e s ys.length = g at *
      obtain ⟨b, s1⟩ := g
      dsimp only at h1 h2
      subst h1 h2
      exact ⟨_, _, l, rfl, h, hb, Nat.le_succ _, by simp [Spec], by simp [outs, Op.ins]⟩

theorem pushAll_spec {e : Env} (he : Sane e) (xs : List α) (s : St α) (l : List α) (h : VInv e s.v l) (hb : Bal s) :
    ∃ r s' l', pushAll e s xs = some (r, s') ∧ VInv e s'.v l' ∧ Bal s' ∧
      (r = .unit ∧ s'.refused = s.refused ∧ l' = l ++ xs ∧ s'.dropped = s.dropped ∨
       r = .panic ∧ s.refused < s'.refused ∧ ∃ k, k ≤ xs.length ∧ l' = l ++ xs.take k ∧ s'.dropped = s.dropped ++ xs.drop k) := by
  induction xs generalizing s l with
  | nil => exact ⟨_, _, l, rfl, h, hb, .inl ⟨rfl, rfl, by simp, rfl⟩⟩
  | cons x xs ih =>
    obtain ⟨r, s1, l1, h1, g, hcase⟩ := push_step he s l h hb x
    rcases hcase with ⟨hr, hl, hd, hrf⟩ | ⟨hr, hl, hd, hrf⟩
    · subst hr hl
      obtain ⟨r2, s2, l2, h2, i2, b2, c2⟩ := ih s1 (l ++ [x]) g.inv g.bal
      refine ⟨r2, s2, l2, ?_, i2, b2, ?_⟩
      · simp only [pushAll, h1]; exact h2
      · rcases c2 with ⟨c1, c2, c3, c4⟩ | ⟨c1, c2, k, c3, c4, c5⟩
        · exact .inl ⟨c1, c2.trans hrf, by rw [c3]; simp, c4.trans hd⟩
        · exact .inr ⟨c1, by omega, k + 1, by simp; omega, by rw [c4]; simp, by rw [c5, hd]; simp⟩
    · subst hr hl
      refine ⟨.panic, { s1 with dropped := s1.dropped ++ xs }, l1, ?_, g.inv, g.bal, .inr ⟨rfl, ?_, 0, by simp, by simp, ?_⟩⟩
      · simp only [pushAll, h1]; rfl
      · show s.refused < s1.refused; omega
      · simp [hd]

theorem extend_step {e : Env} (he : Sane e) (s : St α) (l : List α) (h : VInv e s.v l) (hb : Bal s) (xs : List α)
    (lo : Nat) (hi : Option Nat) (ha : Args e (.extend xs lo hi)) :
    ∃ r s' l', extend e s xs lo hi = some (r, s') ∧ Good e s l (.extend xs lo hi) r s' l' := by
  obtain ⟨ha1, ha2⟩ := ha
  unfold extend
  cases hi with
  | some n =>
    obtain ⟨a1, a2⟩ := ha2 n rfl
    dsimp only
    rcases tryReserve_spec he s l h hb n a2 with ⟨h1, r1⟩ | ⟨h1, h2⟩
    · generalize tryReserve e s n = g at *
      obtain ⟨b, s1⟩ := g
      dsimp only at h1 r1
      subst h1
      have := r1.room
      obtain ⟨v', w1, w2, w3⟩ := writeTail s1.v l xs r1.inv (by omega)
      refine ⟨.unit, { s1 with v := { v' with len := s1.v.len + xs.length } }, l ++ xs, ?_, w2, ?_, Nat.le_of_eq r1.refused.symm, ?_, ?_⟩
      · simp [w1]
      · have := r1.bal; unfold Bal live at *; dsimp only; rw [w3.cap]; exact this
      · simp [Spec, r1.refused]
      · simp only [outs, Op.ins, r1.dropped, List.append_nil, List.append_assoc]
        exact List.Perm.append_left _ List.perm_append_comm
    · generalize tryReserve e s n = g at *
      obtain ⟨b, s1⟩ := g
      dsimp only at h1 h2
      subst h1 h2
      refine ⟨_, _, l, rfl, h, hb, Nat.le_succ _, ?_, by simp [outs, Op.ins]⟩
      simp only [Spec, Nat.succ_ne_self, ne_eq, not_false_eq_true, decide_true, if_true, true_and]
      exact ⟨0, Nat.zero_le _, by simp⟩
  | none =>
    dsimp only
    rcases tryReserve_spec he s l h hb lo ha1 with ⟨h1, r1⟩ | ⟨h1, h2⟩
    · generalize tryReserve e s lo = g at *
      obtain ⟨b, s1⟩ := g
      dsimp only at h1 r1
      subst h1
      obtain ⟨r, s2, l2, p1, p2, p3, p4⟩ := pushAll_spec he xs s1 l r1.inv r1.bal
      refine ⟨r, s2, l2, p1, p2, p3, ?_, ?_, ?_⟩
      · have := r1.refused; rcases p4 with ⟨_, q, _⟩ | ⟨_, q, _⟩ <;> omega
      · have e1 := r1.refused
        rcases p4 with ⟨q1, q2, q3, q4⟩ | ⟨q1, q2, k, q3, q4, q5⟩
        · simp [Spec, q1, q2, q3, e1]
        · have : s2.refused ≠ s.refused := by omega
          simp only [Spec, this, ne_eq, not_false_eq_true, decide_true, if_true]
          exact ⟨q1, k, q3, q4⟩
      · rcases p4 with ⟨q1, q2, q3, q4⟩ | ⟨q1, q2, k, q3, q4, q5⟩
        · subst q1 q3
          simp only [outs, Op.ins, q4, r1.dropped, List.append_nil, List.append_assoc]
          exact List.Perm.append_left _ List.perm_append_comm
        · subst q1 q4
          simp only [outs, Op.ins, q5, r1.dropped, List.append_nil, List.append_assoc]
          apply List.Perm.append_left
          calc xs.drop k ++ (l ++ xs.take k) = (xs.drop k ++ l) ++ xs.take k := by simp
            _ |>.Perm (xs.take k ++ (xs.drop k ++ l)) := List.perm_append_comm
            _ = xs ++ l := by rw [← List.append_assoc, List.take_append_drop]
    · generalize tryReserve e s lo = g at *
      obtain ⟨b, s1⟩ := g
      dsimp only at h1 h2
      subst h1 h2
      refine ⟨_, _, l, rfl, h, hb, Nat.le_succ _, ?_, by simp [outs, Op.ins]⟩
      simp only [Spec, Nat.succ_ne_self, ne_eq, not_false_eq_true, decide_true, if_true, true_and]
      exact ⟨0, Nat.zero_le _, by simp⟩

theorem dropVec_spec {e : Env} (s : St α) (l : List α) (h : VInv e s.v l) (hb : Bal s) :
    ∃ s', dropVec s = some s' ∧ s'.v = .new ∧ Bal s' ∧ s'.dropped = s.dropped ++ l ∧ s'.refused = s.refused ∧
      s'.allocs = s.allocs ∧ s'.frees = s.frees + live s.v := by
  obtain ⟨rest, hd⟩ := h.data
  unfold dropVec
  rw [h.len, dropRange_spec s l rest hd 0 _ (by omega)]
  simp only [List.drop_zero, List.take_length, Option.bind_eq_bind, Option.bind_some]
  by_cases hc : s.v.cap = 0
  · rw [if_neg (by simp [hc])]
    refine ⟨_, rfl, rfl, ?_, rfl, rfl, rfl, ?_⟩
    · unfold Bal live at *; rw [if_pos hc] at hb; simpa [Vec.new] using hb
    · simp [live, hc]
  · rw [if_pos hc]
    have hbk := h.blk
    simp only [free]
    cases hblk : s.v.block with
    | none => simp [hblk, hc] at hbk
    | some b =>
      refine ⟨_, rfl, rfl, ?_, rfl, rfl, rfl, ?_⟩
      · unfold Bal live at *; rw [if_neg hc] at hb; simpa [Vec.new] using hb
      · simp [live, hc]

theorem drop_step {e : Env} (s : St α) (l : List α) (h : VInv e s.v l) (hb : Bal s) :
    ∃ r s' l', step e s .drop = some (r, s') ∧ Good e s l .drop r s' l' := by
  obtain ⟨s', h1, h2, h3, h4, h5, _⟩ := dropVec_spec s l h hb
  refine ⟨.unit, s', [], by simp [step, h1], ?_, h3, Nat.le_of_eq h5.symm, ⟨rfl, rfl⟩, by simp [outs, Op.ins, h4]⟩
  rw [h2]; exact VInv.new e

theorem replace_step {e : Env} (he : Sane e) (s : St α) (l : List α) (h : VInv e s.v l) (hb : Bal s) (n : Nat)
    (hn : e.esz * n < 9223372036854775808) :
    ∃ r s' l', step e s (.replace n) = some (r, s') ∧ Good e s l (.replace n) r s' l' := by
  have hb0 : Bal { s with v := Vec.new, frees := s.frees + live s.v } := by
    unfold Bal at *; simp only [live, Vec.new, if_true]; exact hb
  have comm : tryReserve e { s with v := Vec.new, frees := s.frees + live s.v } n =
      ((tryReserve e { s with v := Vec.new } n).1, { (tryReserve e { s with v := Vec.new } n).2 with frees := s.frees + live s.v }) := by
    unfold tryReserve
    dsimp only
    split
    · split <;> rfl
    · rfl
  have frees : (tryReserve e { s with v := Vec.new } n).2.frees = s.frees := by
    unfold tryReserve
    dsimp only
    split
    · split <;> rfl
    · rfl
  rcases tryReserve_spec he { s with v := Vec.new, frees := s.frees + live s.v } [] (VInv.new e) hb0 n hn with ⟨h1, r1⟩ | ⟨h1, h2⟩
  · rw [comm] at h1 r1
    have hw : withCapacity e s n = some (.unit, (tryReserve e { s with v := Vec.new } n).2) := by
      unfold withCapacity reserve
      dsimp only at h1
      generalize tryReserve e { s with v := Vec.new } n = g at *
      obtain ⟨b, s1⟩ := g
      dsimp only at h1
      subst h1; rfl
    have b1 := r1.bal
    have d1 := r1.dropped
    have f1 := r1.refused
    have i1 := r1.inv
    dsimp only at d1 f1 i1
    generalize tryReserve e { s with v := Vec.new } n = g at *
    obtain ⟨b, s1⟩ := g
    dsimp only at *
    unfold Bal at b1
    dsimp only at b1
    -- the old vector is dropped
    obtain ⟨rest, hd⟩ := h.data
    have hdrop : ∃ s', dropVec { s1 with v := s.v } = some s' ∧ s'.dropped = s1.dropped ++ l ∧ s'.refused = s1.refused ∧
        s'.allocs = s1.allocs ∧ s'.frees = s1.frees + live s.v := by
      unfold dropVec
      dsimp only
      rw [h.len, dropRange_spec { s1 with v := s.v } l rest hd 0 _ (by omega)]
      simp only [List.drop_zero, List.take_length, Option.bind_eq_bind, Option.bind_some]
      by_cases hc : s.v.cap = 0
      · rw [if_neg (by simp [hc])]
        exact ⟨_, rfl, rfl, rfl, rfl, by simp [live, hc]⟩
      · rw [if_pos hc]
        have hbk := h.blk
        simp only [free]
        cases hblk : s.v.block with
        | none => simp [hblk, hc] at hbk
        | some b => exact ⟨_, rfl, rfl, rfl, rfl, by simp [live, hc]⟩
    obtain ⟨s', q1, q2, q3, q4, q5⟩ := hdrop
    refine ⟨.unit, { s' with v := s1.v }, [], ?_, i1, ?_, ?_, ?_, ?_⟩
    · simp only [step, hw, Option.bind_eq_bind, Option.bind_some, q1, Option.pure_def]
    · unfold Bal; dsimp only; omega
    · dsimp only; omega
    · simp [Spec, q3, f1]
    · simp [outs, Op.ins, q2, d1]
  · rw [comm] at h1 h2
    have hv : (tryReserve e { s with v := Vec.new } n).2 =
        { s with v := Vec.new, tries := s.tries + 1, refused := s.refused + 1 } := by
      generalize tryReserve e { s with v := Vec.new } n = g at *
      obtain ⟨b, s1⟩ := g
      obtain ⟨a1, a2, a3, a4, a5, a6, a7⟩ := s1
      dsimp only at h2 frees
      injection h2 with c1 c2 c3 c4 c5 c6 c7
      subst c1 c2 c3 c4 c6 c7 frees; rfl
    have hw : withCapacity e s n = some (.panic, { s with v := Vec.new, tries := s.tries + 1, refused := s.refused + 1 }) := by
      unfold withCapacity reserve
      dsimp only at h1
      generalize tryReserve e { s with v := Vec.new } n = g at *
      obtain ⟨b, s1⟩ := g
      dsimp only at h1 hv
      subst h1 hv; rfl
    refine ⟨.panic, { s with tries := s.tries + 1, refused := s.refused + 1 }, l, ?_, h, hb, Nat.le_succ _, by simp [Spec], by simp [outs, Op.ins]⟩
    simp only [step, hw, Option.bind_eq_bind, Option.bind_some]

theorem intoIter_step {e : Env} (s : St α) (l : List α) (h : VInv e s.v l) (hb : Bal s) (k : Nat) :
    ∃ r s' l', intoIter s k = some (r, s') ∧ Good e s l (.intoIter k) r s' l' := by
  obtain ⟨rest, hd⟩ := h.data
  have take : ∀ k i, i ≤ l.length → IntoIter.take ⟨s, i⟩ k = some ((l.drop i).take k, ⟨s, min (i + k) l.length⟩) := by
    intro k
    induction k with
    | zero => intro i hi; simp [IntoIter.take, Nat.min_eq_left hi]
    | succ k ih =>
      intro i hi
      by_cases hlt : i < l.length
      · have : IntoIter.next ⟨s, i⟩ = some (some l[i], ⟨s, i + 1⟩) := by
          simp [IntoIter.next, h.len, hlt, read_spec s.v l rest hd i hlt]
        simp only [IntoIter.take, this, Option.bind_eq_bind, Option.bind_some, ih (i + 1) hlt, Option.pure_def]
        rw [List.drop_eq_getElem_cons hlt, List.take_succ_cons, Nat.add_assoc, Nat.add_comm 1 k]
      · have : IntoIter.next ⟨s, i⟩ = some (none, ⟨s, i⟩) := by simp [IntoIter.next, h.len, hlt]
        simp only [IntoIter.take, this, Option.bind_eq_bind, Option.bind_some, ih i hi]
        have : l.drop i = [] := List.drop_eq_nil_of_le (by omega)
        rw [this, List.take_nil, List.take_nil, Nat.min_eq_right (by omega), Nat.min_eq_right (by omega)]
  have ht := take k 0 (Nat.zero_le _)
  simp only [List.drop_zero, Nat.zero_add] at ht
  have hdrop : dropRange s (min k l.length) (l.length - min k l.length) =
      some { s with dropped := s.dropped ++ l.drop k } := by
    rw [dropRange_spec s l rest hd _ _ (by omega), List.take_of_length_le (by simp)]
    by_cases hk : k ≤ l.length
    · rw [Nat.min_eq_left hk]
    · rw [Nat.min_eq_right (by omega), List.drop_length, List.drop_eq_nil_of_le (by omega)]
  obtain ⟨s', d1, d2, d3, d4, d5, _⟩ := dropVec_spec (e := e) (setLen { s with dropped := s.dropped ++ l.drop k } 0) []
    (h.setLen 0 rfl ⟨s.v.cells, rfl⟩) hb
  refine ⟨.yielded (l.take k), s', [], ?_, ?_, d3, Nat.le_of_eq d5.symm, ⟨rfl, rfl⟩, ?_⟩
  · simp only [intoIter, ht, Option.bind_eq_bind, Option.bind_some, IntoIter.drop, h.len, hdrop, d1, Option.pure_def]
  · rw [d2]; exact VInv.new e
  · simp only [outs, Op.ins, d4, setLen, List.append_nil, List.append_assoc]
    apply List.Perm.append_left
    refine List.perm_append_comm.trans ?_
    rw [List.take_append_drop]

theorem drain_take {e : Env} (s : St α) (l : List α) (rest) (hd : s.v.cells = l.map some ++ rest) (f t o : Nat) (ht : t ≤ l.length) :
    ∀ k i, i ≤ t → Drain.take ⟨s, f, t, i, o⟩ k = some (((l.take t).drop i).take k, ⟨s, f, t, min (i + k) t, o⟩) := by
  intro k
  induction k with
  | zero => intro i hi; simp [Drain.take, Nat.min_eq_left hi]
  | succ k ih =>
    intro i hi
    by_cases hlt : i < t
    · have hil : i < l.length := by omega
      have : Drain.next ⟨s, f, t, i, o⟩ = some (some l[i], ⟨s, f, t, i + 1, o⟩) := by
        simp [Drain.next, hlt, read_spec s.v l rest hd i hil]
      simp only [Drain.take, this, Option.bind_eq_bind, Option.bind_some, ih (i + 1) hlt, Option.pure_def]
      have hit : i < (l.take t).length := by simp; omega
      rw [List.drop_eq_getElem_cons hit, List.take_succ_cons, Nat.add_assoc, Nat.add_comm 1 k]
      simp
    · have : Drain.next ⟨s, f, t, i, o⟩ = some (none, ⟨s, f, t, i, o⟩) := by simp [Drain.next, hlt]
      simp only [Drain.take, this, Option.bind_eq_bind, Option.bind_some, ih i hi]
      have : (l.take t).drop i = [] := List.drop_eq_nil_of_le (by simp; omega)
      rw [this, List.take_nil, List.take_nil, Nat.min_eq_right (by omega), Nat.min_eq_right (by omega)]

theorem drain_drop {e : Env} (s : St α) (l : List α) (h : VInv e s.v l) (hb : Bal s) (f t i : Nat) (ht : t ≤ l.length) (hi : i ≤ t)
    (hf : f ≤ i) :
    ∃ s', Drain.drop ⟨setLen s f, f, t, i, l.length⟩ = some s' ∧ VInv e s'.v (l.take f ++ l.drop t) ∧ Bal s' ∧
      s'.dropped = s.dropped ++ (l.take t).drop i ∧ s'.refused = s.refused := by
  obtain ⟨rest, hd⟩ := h.data
  have e1 := dropRange_spec (setLen s f) l rest hd i (t - i) (by omega)
  obtain ⟨v1, rest', h1, f1, c1⟩ := copyCells_spec (setLen s f).v l rest hd t f (l.length - t) (by omega) (by omega)
  refine ⟨setLen { s with v := v1, dropped := s.dropped ++ (l.drop i).take (t - i) } (l.length - t + f), ?_, ?_, ?_, ?_, rfl⟩
  · simp only [Drain.drop, e1, h1, Option.bind_eq_bind, Option.bind_some, Option.pure_def]; rfl
  · exact VInv.frameLen (h.setLen (l' := l.take f) f (by simp; omega) ⟨(l.drop f).map some ++ rest, by
      rw [hd, ← List.append_assoc, ← List.map_append, List.take_append_drop]⟩) f1 _ (by simp; omega) ⟨rest', c1⟩
  · unfold Bal at *
    show s.allocs = s.frees + live { v1 with len := _ }
    rw [hb]; congr 1
    show live s.v = live v1
    exact (live_frame f1).symm
  · simp [setLen, List.drop_take]

theorem drain_step {e : Env} (s : St α) (l : List α) (h : VInv e s.v l) (hb : Bal s) (f t k : Nat) (stop : Bool) :
    ∃ r s' l', drain s f t k stop = some (r, s') ∧ Good e s l (.drain f t k stop) r s' l' := by
  by_cases hv : f ≤ t ∧ t ≤ l.length
  · obtain ⟨hft, htl⟩ := hv
    obtain ⟨rest, hd⟩ := h.data
    have hn : drainNew s f t = some ⟨setLen s f, f, t, f, l.length⟩ := by simp [drainNew, h.len, hft, htl]
    have htk := drain_take (e := e) (setLen s f) l rest hd f t l.length htl k f hft
    cases stop with
    | false =>
      obtain ⟨s', d1, d2, d3, d4, d5⟩ := drain_drop s l h hb f t (min (f + k) t) htl (by omega) (by omega)
      refine ⟨.yielded (((l.take t).drop f).take k), s', l.take f ++ l.drop t, ?_, d2, d3, Nat.le_of_eq d5.symm, ?_, ?_⟩
      · simp only [drain, hn, htk, Option.bind_eq_bind, Option.bind_some, Bool.false_eq_true, if_false, d1, Option.pure_def]
      · simp [Spec, hft, htl]
      · simp only [outs, Op.ins, List.append_nil, d4, List.append_assoc]
        apply List.Perm.append_left
        have e2 : (l.take t).drop (min (f + k) t) = ((l.take t).drop f).drop k := by
          rw [List.drop_drop]
          by_cases hk : f + k ≤ t
          · rw [Nat.min_eq_left hk]
          · rw [Nat.min_eq_right (by omega), List.drop_eq_nil_of_le (by simp; omega), List.drop_eq_nil_of_le (by simp; omega)]
        rw [e2, ← List.append_assoc]
        refine (List.perm_append_comm.append_right _).trans ?_
        rw [List.take_append_drop, ← List.append_assoc]
        refine (List.perm_append_comm.append_right _).trans ?_
        have e3 : l.take f = (l.take t).take f := by rw [List.take_take, Nat.min_eq_left hft]
        rw [e3, List.take_append_drop, List.take_append_drop]
    | true =>
      obtain ⟨s', d1, d2, d3, d4, d5⟩ := drain_drop s l h hb f (min (f + k) t) (min (f + k) t) (by omega) (by omega) (by omega)
      refine ⟨.yielded (((l.take t).drop f).take k), s', l.take f ++ l.drop (min (f + k) t), ?_, d2, d3, Nat.le_of_eq d5.symm, ?_, ?_⟩
      · simp only [drain, hn, htk, Option.bind_eq_bind, Option.bind_some, if_true, Drain.stop, d1, Option.pure_def]
      · simp [Spec, hft, htl]
      · simp only [outs, Op.ins, List.append_nil, d4, List.append_assoc]
        apply List.Perm.append_left
        have e0 : (l.take (min (f + k) t)).drop (min (f + k) t) = [] := List.drop_eq_nil_of_le (by simp; omega)
        have e2 : ((l.take t).drop f).take k = (l.take (min (f + k) t)).drop f := by
          rw [List.take_drop, List.take_take]
        have e3 : l.take f = (l.take (min (f + k) t)).take f := by rw [List.take_take, Nat.min_eq_left (by omega)]
        rw [e0, e2, List.nil_append, ← List.append_assoc]
        refine (List.perm_append_comm.append_right _).trans ?_
        rw [e3, List.take_append_drop, List.take_append_drop]
  · refine ⟨.panic, s, l, ?_, h, hb, Nat.le_refl _, ?_, by simp [outs, Op.ins]⟩
    · simp [drain, drainNew, h.len, hv]
    · simp [Spec, hv]

end Verif.Vec
