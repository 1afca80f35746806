import Verif.Vec.Steps

/-! Properties C15, C16, C17, C18. -/
namespace Verif.Props.Vec
open Verif.Vec
variable {α : Type}

theorem step_good {e : Env} (he : Sane e) (s : St α) (l : List α) (h : VInv e s.v l) (hb : Bal s) (op : Op α) (ha : Args e op) :
    ∃ r s' l', step e s op = some (r, s') ∧ Good e s l op r s' l' := by
  cases op with
  | push x => obtain ⟨r, s', l', h1, h2, _⟩ := push_step he s l h hb x; exact ⟨r, s', l', h1, h2⟩
  | tryPush x => exact tryPush_step he s l h hb x
  | pop => exact pop_step s l h hb
  | remove i => exact remove_step s l h hb i
  | swap i j => exact swap_step s l h hb i j
  | swapRemove i => exact swapRemove_step s l h hb i
  | truncate n => exact truncate_step s l h hb n
  | reserve n => obtain ⟨r, s', l', h1, h2, _⟩ := reserve_step he s l h hb n ha; exact ⟨r, s', l', h1, h2⟩
  | tryReserve n => exact tryReserve_step he s l h hb n ha
  | copyExtend xs => exact copyExtend_step he s l h hb xs ha
  | extend xs lo hi => exact extend_step he s l h hb xs lo hi ha
  | asSlice => exact asSlice_step s l h hb
  | index i => exact index_step s l h hb i
  | len => exact ⟨_, _, l, rfl, h, hb, Nat.le_refl _, ⟨by rw [h.len], rfl⟩, by simp [outs, Op.ins]⟩
  | drain f t k b => exact drain_step s l h hb f t k b
  | intoIter k => exact intoIter_step s l h hb k
  | replace n => exact replace_step he s l h hb n ha
  | drop => exact drop_step s l h hb

/-- Which operations of a history met a refusal of the allocator. -/
def refusals (e : Env) (s : St α) : List (Op α) → List Bool
  | [] => []
  | op :: ops =>
    match step e s op with
    | none => []
    | some (_, s') => decide (s'.refused ≠ s.refused) :: refusals e s' ops

/-- The elements handed back over a history. -/
def outsAll : List (Op α) → List (Res α) → List α
  | op :: ops, r :: rs => outs op r ++ outsAll ops rs
  | _, _ => []

theorem run_good {e : Env} (he : Sane e) (ops : List (Op α)) (ha : ∀ op ∈ ops, Args e op) (s : St α) (l : List α)
    (h : VInv e s.v l) (hb : Bal s) : ∃ rs s' l', run e s ops = some (rs, s') ∧ VInv e s'.v l' ∧ Bal s' ∧
      SpecRun ops (refusals e s ops) l rs l' ∧
      (s'.dropped ++ outsAll ops rs ++ l').Perm (s.dropped ++ ops.flatMap Op.ins ++ l) := by
  induction ops generalizing s l with
  | nil => exact ⟨[], s, l, rfl, h, hb, rfl, by simp [outsAll]⟩
  | cons op ops ih =>
    obtain ⟨r, s1, l1, h1, g⟩ := step_good he s l h hb op (ha op (by simp))
    obtain ⟨rs, s2, l2, h2, i2, b2, c2, p2⟩ := ih (fun o ho => ha o (by simp [ho])) s1 l1 g.inv g.bal
    refine ⟨r :: rs, s2, l2, by simp [run, h1, h2], i2, b2, ?_, ?_⟩
    · simp only [refusals, h1]
      exact ⟨l1, g.spec, c2⟩
    · simp only [outsAll, List.flatMap_cons]
      have e1 : (s2.dropped ++ (outs op r ++ outsAll ops rs) ++ l2).Perm (outs op r ++ (s2.dropped ++ outsAll ops rs ++ l2)) := by
        simp only [← List.append_assoc]
        exact (List.perm_append_comm.append_right _).append_right _
      refine e1.trans ((p2.append_left _).trans ?_)
      have e2 : (outs op r ++ (s1.dropped ++ ops.flatMap Op.ins ++ l1)).Perm (ops.flatMap Op.ins ++ (s1.dropped ++ outs op r ++ l1)) := by
        refine List.Perm.trans (l₂ := outs op r ++ (ops.flatMap Op.ins ++ s1.dropped ++ l1)) ?_ ?_
        · exact ((List.perm_append_comm).append_right _).append_left _
        · simp only [← List.append_assoc]
          refine List.Perm.append_right _ ?_
          refine ((List.perm_append_comm (l₁ := outs op r)).append_right _).trans ?_
          simp only [List.append_assoc]
          exact List.perm_append_comm.append_left _
      refine e2.trans ((g.ledger.append_left _).trans ?_)
      simp only [← List.append_assoc]
      refine List.Perm.append_right _ ?_
      simp only [List.append_assoc]
      refine List.perm_append_comm.trans ?_
      simp only [List.append_assoc]
      exact List.Perm.refl _

/-! ### C15 -/

/-- Any history of operations on a vector is free of undefined behaviour, reports what the same operations report on a
sequence, and leaves the slice view equal to that sequence; an operation whose request is refused leaves the sequence unchanged
(an `extend` may have appended a prefix) and gives the value back if it is a `try_` variant.  Restricted to requests of
less than 2^63 bytes and iterators that respect their upper bound: see the `_refuted` theorems for the rest. -/
theorem C15_history_partial (e : Env) (he : Sane e) (ops : List (Op α)) (ha : ∀ op ∈ ops, Args e op) :
    ∃ rs s l, run e (St.new : St α) ops = some (rs, s) ∧ SpecRun ops (refusals e St.new ops) [] rs l ∧
      asSlice s = some (.refs l, s) ∧ s.v.len = l.length := by
  obtain ⟨rs, s, l, h1, h2, h3, h4, _⟩ := run_good he ops ha St.new [] (VInv.new e) rfl
  refine ⟨rs, s, l, h1, h4, ?_, h2.len⟩
  obtain ⟨rest, hd⟩ := h2.data
  unfold asSlice
  rw [h2.len, slice_spec s.v l rest hd _ _ (by omega)]
  simp

/-- An allocator that grants the first two requests; 8-byte elements. -/
def twice : Env := ⟨8, fun i b => decide (i < 2 ∧ b < 9223372036854775808)⟩
theorem twice_sane : Sane twice := by
  refine ⟨by decide, fun i b h => ?_⟩
  simp [twice] at h; exact h.2

example : ∀ op ∈ [Op.reserve 1, .push 7, .push 8, .swap 0 1, .tryPush 9, .drain 0 1 0 false, .pop, .pop], Args twice op := by
  simp [Args, twice]
example : run twice St.new [Op.reserve 1, .push 7, .push 8, .swap 0 1, .tryPush 9, .drain 0 1 0 false, .pop, .pop] =
    some ([.unit, .unit, .unit, .unit, .back 9, .yielded [], .moved (some 7), .moved none],
      ⟨⟨some ⟨[some 7, some 7], 2⟩, 0, 2⟩, [8], 3, 1, 0, 1, 1⟩) := by rfl

/-- A refusal only happens when the allocator says no. -/
theorem C15_refusal (e : Env) (s : St α) (n : Nat) (h : (tryReserve e s n).2.refused ≠ s.refused) :
    ∃ i b, e.ok i b = false := by
  unfold tryReserve at h
  split at h
  · dsimp only at h
    split at h
    · exact absurd rfl h
    · rename_i h'; exact ⟨_, _, by simpa using h'⟩
  · exact absurd rfl h

/-- Cloning a vector gives a vector with the clones of its elements, or panics when the allocator refuses. -/
theorem C15_clone (e : Env) (he : Sane e) (c : α → α) (ops : List (Op α)) (ha : ∀ op ∈ ops, Args e op) (rs : List (Res α)) (s : St α)
    (hs : run e St.new ops = some (rs, s)) : ∃ l r s', asSlice s = some (.refs l, s) ∧ cloneVec e c s St.new = some (r, s') ∧
      if s'.refused = 0 then r = .unit ∧ asSlice s' = some (.refs (l.map c), s') else r = .panic := by
  obtain ⟨rs', s', l, h1, h2, _, _, _⟩ := run_good he ops ha St.new [] (VInv.new e) rfl
  rw [hs] at h1; cases h1
  obtain ⟨rest, hd⟩ := h2.data
  have hsl : slice s.v 0 s.v.len = some l := by
    rw [h2.len, slice_spec s.v l rest hd _ _ (by omega)]; simp
  have hbd : e.esz * s.v.len < 9223372036854775808 := by
    have := h2.bound
    have : e.esz * s.v.len ≤ e.esz * s.v.cap := Nat.mul_le_mul_left _ (by rw [h2.len]; exact h2.le)
    omega
  obtain ⟨r, s1, l1, q1, g, _, hc⟩ := reserve_step he (St.new : St α) [] (VInv.new e) rfl s.v.len hbd
  have hw : withCapacity e (St.new : St α) s.v.len = some (r, s1) := q1
  rcases hc with ⟨rfl, hroom⟩ | ⟨rfl, _⟩
  · obtain ⟨hsp, rfl⟩ := g.spec
    have hrf : s1.refused = 0 := by
      by_cases hz : s1.refused = 0
      · exact hz
      · have e0 : decide (s1.refused ≠ (St.new : St α).refused) = true := decide_eq_true hz
        rw [e0] at hsp; simp at hsp
    obtain ⟨v', w1, w2, _⟩ := writeTail s1.v [] (l.map c) g.inv (by rw [List.length_map, ← h2.len]; exact hroom)
    have hlen0 : s1.v.len = 0 := g.inv.len
    refine ⟨l, .unit, setLen { s1 with v := v' } s.v.len, by simp [asSlice, hsl], ?_, ?_⟩
    · simp only [cloneVec, hw, Option.bind_eq_bind, Option.bind_some, hsl]
      rw [← hlen0, w1]; rfl
    · rw [if_pos (show (setLen { s1 with v := v' } s.v.len).refused = 0 from hrf)]
      refine ⟨rfl, ?_⟩
      obtain ⟨rest', hd'⟩ := w2.data
      have hd' : (setLen { s1 with v := v' } s.v.len).v.cells = (l.map c).map some ++ rest' := by
        simpa [Vec.cells, setLen] using hd'
      have := slice_spec (setLen { s1 with v := v' } s.v.len).v (l.map c) rest' hd' s.v.len 0 (by simp [h2.len])
      have hl' : (setLen { s1 with v := v' } s.v.len).v.len = s.v.len := rfl
      rw [asSlice, hl', this, List.drop_zero, List.take_of_length_le (by simp [h2.len])]
      rfl
  · refine ⟨l, .panic, s1, by simp [asSlice, hsl], by simp only [cloneVec, hw, Option.bind_eq_bind, Option.bind_some], ?_⟩
    obtain ⟨hsp, _⟩ := g.spec
    have hrf : s1.refused ≠ 0 := by
      intro hz
      have e0 : decide (s1.refused ≠ (St.new : St α).refused) = false := decide_eq_false (by rw [hz]; exact fun h => h rfl)
      rw [e0] at hsp; simp at hsp
    rw [if_neg hrf]

/-- A generous allocator and 8-byte elements. -/
def u64Env : Env := ⟨8, fun _ b => decide (b < 9223372036854775808)⟩

/-- `Vec::<u64>::with_capacity(1 << 61)` succeeds with a block that holds no element; the next push writes out of bounds. -/
theorem C15_capacity_overflow_refuted : Sane u64Env ∧
    run u64Env (St.new : St Nat) [.replace 2305843009213693952] =
      some ([.unit], ⟨⟨some ⟨[], 2305843009213693952⟩, 0, 2305843009213693952⟩, [], 1, 1, 0, 0, 0⟩) ∧
    run u64Env (St.new : St Nat) [.replace 2305843009213693952, .push 5] = none := by
  refine ⟨⟨by decide, fun i b h => by simpa [u64Env] using h⟩, ?_, ?_⟩ <;> decide +kernel

/-- `v.extend((0..1 << 61).filter(|x| *x == 5))`: an honest upper bound is enough to write out of bounds. -/
theorem C15_extend_overflow_refuted :
    run u64Env (St.new : St Nat) [.extend [5] 0 (some 2305843009213693952)] = none := by decide +kernel

/-- A safe iterator that announces one item and yields two makes `extend` write out of bounds. -/
theorem C15_extend_hint_refuted : run u64Env (St.new : St Nat) [.extend [5, 6] 0 (some 1)] = none := by decide +kernel

theorem specRun_drop (ops : List (Op α)) (fl : List Bool) (l0 : List α) (rs : List (Res α)) (l : List α)
    (h : SpecRun (ops ++ [.drop]) fl l0 rs l) : l = [] := by
  induction ops generalizing fl l0 rs with
  | nil =>
    cases fl with
    | nil => exact h.elim
    | cons f fs =>
      cases rs with
      | nil => exact h.elim
      | cons r rs =>
        obtain ⟨m, ⟨_, hm⟩, hr⟩ := h
        cases fs with
        | nil =>
          cases rs with
          | nil => exact Eq.trans hr hm
          | cons _ _ => exact hr.elim
        | cons _ _ => exact hr.elim
  | cons op ops ih =>
    cases fl with
    | nil => exact h.elim
    | cons f fs =>
      cases rs with
      | nil => exact h.elim
      | cons r rs =>
        obtain ⟨m, _, hr⟩ := h
        exact ih _ _ _ hr

/-! ### C16 -/

/-- Over any history that ends with the drop of the vector, the elements handed to the vector are exactly the elements handed
back and the elements dropped, each as often (so tokens used once are handed back or dropped once); and every block obtained
from the allocator is released once. -/
theorem C16_ledger (e : Env) (he : Sane e) (ops : List (Op α)) (ha : ∀ op ∈ ops, Args e op) :
    ∃ rs s, run e (St.new : St α) (ops ++ [.drop]) = some (rs, s) ∧
      (ops.flatMap Op.ins).Perm (outsAll (ops ++ [.drop]) rs ++ s.dropped) ∧ s.allocs = s.frees := by
  have ha' : ∀ op ∈ ops ++ [.drop], Args e op := by
    intro op h
    rcases List.mem_append.1 h with h | h
    · exact ha op h
    · simp at h; subst h; trivial
  obtain ⟨rs, s, l, h1, h2, h3, h4, h5⟩ := run_good he _ ha' St.new [] (VInv.new e) rfl
  have hl : l = [] := specRun_drop _ _ _ _ _ h4
  subst hl
  refine ⟨rs, s, h1, ?_, ?_⟩
  · simp only [List.append_nil, St.new, List.nil_append, List.flatMap_append, List.flatMap_cons, List.flatMap_nil, Op.ins] at h5
    exact h5.symm.trans List.perm_append_comm
  · have hv : s.v.cap = 0 := by
      have : ∃ s0, dropVec s0 = some s := by
        have key : ∀ (ops : List (Op α)) (s0 : St α) rs, run e s0 (ops ++ [.drop]) = some (rs, s) → ∃ s0, dropVec s0 = some s := by
          intro ops
          induction ops with
          | nil =>
            intro s0 rs h
            simp only [List.nil_append, run, step, Option.bind_eq_bind, Option.pure_def, Option.bind_eq_some_iff] at h
            obtain ⟨⟨r, s1⟩, ⟨s2, j2, j3⟩, ⟨p, j4, j5⟩⟩ := h
            cases j3; cases j4; cases j5
            exact ⟨s0, j2⟩
          | cons op ops ih =>
            intro s0 rs h
            simp only [List.cons_append, run, Option.bind_eq_bind, Option.pure_def, Option.bind_eq_some_iff] at h
            obtain ⟨⟨r, s1⟩, _, ⟨p, j4, j5⟩⟩ := h
            cases j5
            exact ih s1 _ j4
        exact key _ _ _ h1
      obtain ⟨s0, h0⟩ := this
      simp only [dropVec, Option.bind_eq_bind, Option.bind_eq_some_iff] at h0
      obtain ⟨s1, _, h0⟩ := h0
      split at h0
      · unfold free at h0; split at h0
        · cases h0
        · cases h0; rfl
      · cases h0; rfl
    unfold Bal live at h3
    rw [if_pos hv] at h3; exact h3

/-- Tokens 1 to 4: one is popped, one drained, one dropped by a truncation, one by the final drop. -/
example : run u64Env St.new ([Op.push 1, .push 2, .push 3, .push 4, .pop, .drain 0 1 1 false, .truncate 1] ++ [.drop]) =
    some ([.unit, .unit, .unit, .unit, .moved (some 4), .yielded [1], .unit, .unit], ⟨.new, [3, 2], 1, 1, 1, 0, 0⟩) := by rfl

/-! ### C17 -/

/-- Draining `f..t` with any number of calls to `next` yields the elements of the range in order, and the vector then holds what
comes before and after the range (after the last yielded element for `stop`); invalid ranges panic and change nothing. -/
theorem C17_drain (e : Env) (he : Sane e) (ops : List (Op α)) (ha : ∀ op ∈ ops, Args e op) (rs : List (Res α)) (s : St α)
    (hs : run e St.new ops = some (rs, s)) (f t k : Nat) (stop : Bool) : ∃ l r s' l',
      asSlice s = some (.refs l, s) ∧ drain s f t k stop = some (r, s') ∧ asSlice s' = some (.refs l', s') ∧
      if f ≤ t ∧ t ≤ l.length then
        r = .yielded (((l.take t).drop f).take k) ∧ l' = l.take f ++ l.drop (if stop then min (f + k) t else t)
      else r = .panic ∧ l' = l := by
  obtain ⟨rs', s0, l, h1, h2, hb, _, _⟩ := run_good he ops ha St.new [] (VInv.new e) rfl
  rw [hs] at h1; cases h1
  have view : ∀ (s : St α) (l : List α), VInv e s.v l → asSlice s = some (.refs l, s) := by
    intro s l h
    obtain ⟨rest, hd⟩ := h.data
    unfold asSlice
    rw [h.len, slice_spec s.v l rest hd _ _ (by omega)]; simp
  obtain ⟨r, s', l', h3, g⟩ := drain_step s l h2 hb f t k stop
  exact ⟨l, r, s', l', view s l h2, h3, view s' l' g.inv, g.spec⟩

/-- `len` (and `size_hint`) of a drain is the number of elements it has yet to yield: it starts at the length of the range, each element
yielded takes one off, and `next` yields nothing exactly when it is zero. -/
theorem C17_drain_len (s : St α) (f t k : Nat) (d d' : Drain α) (xs : List α) (hd : drainNew s f t = some d) (ht : d.take k = some (xs, d')) :
    d.len = t - f ∧ d'.len + xs.length = t - f ∧ (d'.len = 0 ↔ d'.next = some (none, d')) := by
  unfold drainNew at hd
  split at hd
  · rename_i hft
    cases hd
    have key : ∀ (k : Nat) (d d' : Drain α) (xs : List α), d.index ≤ d.to → d.take k = some (xs, d') →
        d'.index ≤ d'.to ∧ d'.len + xs.length = d.len := by
      intro k
      induction k with
      | zero => intro d d' xs h0 h; cases h; exact ⟨h0, rfl⟩
      | succ k ih =>
        intro d d' xs h0 h
        simp only [Drain.take, Drain.next, Option.bind_eq_bind, Option.bind_eq_some_iff] at h
        obtain ⟨⟨x, d1⟩, h1, h2⟩ := h
        split at h1
        · rename_i hlt
          simp only [Option.bind_eq_some_iff, Option.pure_def] at h1
          obtain ⟨y, _, h1⟩ := h1
          cases h1
          simp only [Option.bind_eq_some_iff, Option.pure_def] at h2
          obtain ⟨⟨ys, d2⟩, h3, h4⟩ := h2
          cases h4
          have h5 := ih _ _ _ (by exact hlt) h3
          refine ⟨h5.1, ?_⟩
          have h6 := h5.2
          simp only [Drain.len, List.length_cons] at h6 ⊢
          omega
        · cases h1
          exact ih _ _ _ h0 h2
    obtain ⟨h1, h2⟩ := key k _ _ _ hft.1 ht
    refine ⟨rfl, h2, ?_⟩
    unfold Drain.len Drain.next
    constructor
    · intro h; rw [if_neg (by omega)]
    · intro h
      split at h
      · simp only [Option.bind_eq_bind, Option.bind_eq_some_iff, Option.pure_def] at h
        obtain ⟨y, _, h⟩ := h
        cases h
      · omega
  · cases hd

/-- `k` calls to `next` on a double-ended drain. -/
def frontTake (d : DDrain α) : Nat → Option (List α × DDrain α)
  | 0 => some ([], d)
  | k + 1 => do
    match ← d.next with
    | (none, d) => frontTake d k
    | (some x, d) => do
      let (xs, d) ← frontTake d k
      return (x :: xs, d)

/-- A double-ended drain used from the front only behaves as the drain it comes from.  What is missing from C17: `next_back`,
see `C17_next_back_refuted`. -/
theorem C17_double_ended_front_partial (s : St α) (f t k : Nat) (d : Drain α) (hd : drainNew s f t = some d) :
    (do let (xs, d) ← d.take k; return (xs, ← d.drop)) = (do let (xs, d) ← frontTake d.doubleEnded k; return (xs, ← d.drop)) := by
  clear hd
  have : frontTake d.doubleEnded k = (d.take k).map (fun p => (p.1, p.2.doubleEnded)) := by
    induction k generalizing d with
    | zero => rfl
    | succ k ih =>
      have hn : d.doubleEnded.next = d.next.map (fun p => (p.1, p.2.doubleEnded)) := by
        unfold DDrain.next Drain.next
        show (if d.index < d.to then _ else _) = _
        split
        · show (do let x ← read d.s.v d.index; _) = Option.map _ (do let x ← read d.s.v d.index; _)
          cases read d.s.v d.index <;> rfl
        · rfl
      simp only [frontTake, Drain.take, hn]
      cases hx : d.next with
      | none => rfl
      | some p =>
        obtain ⟨x, d'⟩ := p
        simp only [Option.map_some, Option.bind_eq_bind, Option.bind_some]
        cases x with
        | none => exact ih d'
        | some x =>
          dsimp only
          rw [ih d']
          cases d'.take k <;> rfl
  rw [this]
  cases d.take k <;> rfl

/-- A vector holding 1, 2, 3 with room for 8. -/
def sample : St Nat := ⟨⟨some ⟨[some 1, some 2, some 3, none, none, none, none, none], 8⟩, 3, 8⟩, [], 1, 1, 0, 0, 0⟩
example : run u64Env St.new [.push 1, .push 2, .push 3] = some ([.unit, .unit, .unit], sample) := rfl

example : ∃ d d', drainNew sample 0 2 = some d ∧ d.take 1 = some ([1], d') ∧ d.len = 2 ∧ d'.len = 1 := ⟨_, _, rfl, rfl, rfl, rfl⟩

/-- `next_back` on the drain of `0..2` yields the third element, which stays in the vector: it is duplicated.  On the drain of the
whole vector it reads an uninitialised cell. -/
theorem C17_next_back_refuted :
    (∃ d d' s', drainNew sample 0 2 = some d ∧ d.doubleEnded.nextBack = some (some 3, d') ∧ d'.drop = some s' ∧
      asSlice s' = some (.refs [3], s')) ∧
    (∃ d, drainNew sample 0 3 = some d ∧ d.doubleEnded.nextBack = none) :=
  ⟨⟨_, _, _, rfl, rfl, rfl, rfl⟩, ⟨_, rfl, rfl⟩⟩

/-- Calls to `next` (`false`) and `next_back` (`true`). -/
def dCalls (d : DDrain α) : List Bool → Option (List (Option α) × DDrain α)
  | [] => some ([], d)
  | b :: bs => do
    let (x, d) ← if b then d.nextBack else d.next
    let (xs, d) ← dCalls d bs
    return (x :: xs, d)

/-- What they do between positions `i` and `r` of a sequence: from the back, the element one past the one that should be yielded. -/
def dSpec (l : List α) (i r : Nat) : List Bool → List (Option α) × Nat × Nat
  | [] => ([], i, r)
  | b :: bs =>
    if i < r then
      if b then (l[r]? :: (dSpec l i (r - 1) bs).1, (dSpec l i (r - 1) bs).2) else (l[i]? :: (dSpec l (i + 1) r bs).1, (dSpec l (i + 1) r bs).2)
    else (none :: (dSpec l i r bs).1, (dSpec l i r bs).2)

theorem dSpec_bounds (l : List α) (i r : Nat) (bs : List Bool) (h : i ≤ r) :
    i ≤ (dSpec l i r bs).2.1 ∧ (dSpec l i r bs).2.1 ≤ (dSpec l i r bs).2.2 ∧ (dSpec l i r bs).2.2 ≤ r := by
  induction bs generalizing i r with
  | nil => exact ⟨Nat.le_refl _, h, Nat.le_refl _⟩
  | cons b bs ih =>
    simp only [dSpec]
    split
    · split
      · have := ih i (r - 1) (by omega); dsimp only; omega
      · have := ih (i + 1) r (by omega); dsimp only; omega
    · exact ih i r h

theorem dCalls_spec (l : List α) (rest) (d : DDrain α) (hd : d.s.v.cells = l.map some ++ rest) (hi : d.lindex ≤ d.rindex) (hr : d.rindex < l.length) (bs : List Bool) :
    dCalls d bs = some ((dSpec l d.lindex d.rindex bs).1, { d with lindex := (dSpec l d.lindex d.rindex bs).2.1, rindex := (dSpec l d.lindex d.rindex bs).2.2 }) := by
  induction bs generalizing d with
  | nil => rfl
  | cons b bs ih =>
    simp only [dCalls, dSpec]
    by_cases h : d.lindex < d.rindex
    · cases b with
      | true =>
        simp only [h, if_true, DDrain.nextBack, read_spec d.s.v l rest hd d.rindex hr, Option.bind_eq_bind, Option.bind_some, Option.pure_def]
        rw [ih { d with rindex := d.rindex - 1 } hd (by show d.lindex ≤ d.rindex - 1; omega) (by show d.rindex - 1 < _; omega)]
        simp [hr]
      | false =>
        simp only [h, if_true, Bool.false_eq_true, if_false, DDrain.next, read_spec d.s.v l rest hd d.lindex (by omega), Option.bind_eq_bind, Option.bind_some, Option.pure_def]
        rw [ih { d with lindex := d.lindex + 1 } hd (by show d.lindex + 1 ≤ d.rindex; omega) hr]
        simp [show d.lindex < l.length by omega]
    · cases b <;> simp only [h, if_true, if_false, Bool.false_eq_true, DDrain.next, DDrain.nextBack, Option.bind_eq_bind, Option.bind_some, ih d hd hi hr, Option.pure_def]

/-- What any sequence of calls on a double-ended drain does, where the range ends before the vector does: `next_back` yields what is one past the end of what is left.
When dropped, the drain drops what is left and the vector holds what is before and after the range.  `len` is right, `size_hint` ignores what was taken from the back. -/
theorem C17_double_ended_exact (e : Env) (he : Sane e) (ops : List (Op α)) (ha : ∀ op ∈ ops, Args e op) (rs : List (Res α)) (s : St α)
    (hs : run e St.new ops = some (rs, s)) (l : List α) (hl : asSlice s = some (.refs l, s)) (f t : Nat) (hft : f ≤ t) (htl : t < l.length) (bs : List Bool) :
    ∃ d d' s', drainNew s f t = some d ∧ dCalls d.doubleEnded bs = some ((dSpec l f t bs).1, d') ∧ d'.drop = some s' ∧
      asSlice s' = some (.refs (l.take f ++ l.drop t), s') ∧ s'.dropped = s.dropped ++ (l.take (dSpec l f t bs).2.2).drop (dSpec l f t bs).2.1 ∧
      d'.len = (dSpec l f t bs).2.2 - (dSpec l f t bs).2.1 ∧ d'.sizeHint = t - (dSpec l f t bs).2.1 := by
  obtain ⟨rs', s0, l0, h1, h2, hb, _, _⟩ := run_good he ops ha St.new [] (VInv.new e) rfl
  rw [hs] at h1; cases h1
  obtain ⟨rest, hd⟩ := h2.data
  have hll : l = l0 := by
    unfold asSlice at hl
    rw [h2.len, slice_spec s.v l0 rest hd _ _ (by omega)] at hl
    simp at hl; exact hl.symm
  subst hll
  have hn : drainNew s f t = some ⟨setLen s f, f, t, f, l.length⟩ := by simp [drainNew, h2.len, hft]; omega
  have hc := dCalls_spec l rest (Drain.doubleEnded ⟨setLen s f, f, t, f, l.length⟩) hd hft htl bs
  have hbd := dSpec_bounds l f t bs hft
  generalize hg : (dSpec l f t bs) = g at hbd
  obtain ⟨xs, i, r⟩ := g
  simp only at hbd
  have hsl := slice_spec (setLen s f).v l rest hd (r - i) i (by omega)
  obtain ⟨v', rest', hv, hfr, hcell⟩ := copyCells_spec (setLen s f).v l rest hd t f (l.length - t) hft (by omega)
  have hc' : dCalls (Drain.doubleEnded ⟨setLen s f, f, t, f, l.length⟩) bs = some (xs, ⟨setLen s f, f, t, l.length, i, r⟩) := by
    rw [hc]
    show some ((dSpec l f t bs).1, DDrain.mk _ _ _ _ (dSpec l f t bs).2.1 (dSpec l f t bs).2.2) = _
    rw [hg]; rfl
  refine ⟨_, _, setLen { setLen s f with v := v', dropped := s.dropped ++ (l.drop i).take (r - i) } (l.length - t + f), hn, hc', ?_, ?_, ?_, rfl, rfl⟩
  · simp only [DDrain.drop, dropRange, hsl, Option.bind_eq_bind, Option.bind_some, Option.pure_def]
    rw [show ({ setLen s f with dropped := (setLen s f).dropped ++ (l.drop i).take (r - i) } : St α).v = (setLen s f).v from rfl, hv]
    rfl
  · unfold asSlice
    show (do let l ← slice { v' with len := _ } 0 (l.length - t + f); _) = _
    rw [slice_spec { v' with len := l.length - t + f } (l.take f ++ l.drop t) rest' hcell (l.length - t + f) 0 (by simp; omega)]
    simp only [Option.bind_eq_bind, Option.bind_some, List.drop_zero]
    rw [List.take_of_length_le (by simp; omega)]
    rfl
  · show s.dropped ++ (l.drop i).take (r - i) = s.dropped ++ (l.take r).drop i
    rw [List.drop_take]

/-- So `next_back` is wrong whatever the vector and the range: the element it yields stays in the vector as well (duplicated), and the one it should have
yielded is neither yielded, dropped nor kept (leaked). -/
theorem C17_next_back_any_refuted (e : Env) (he : Sane e) (ops : List (Op α)) (ha : ∀ op ∈ ops, Args e op) (rs : List (Res α)) (s : St α)
    (hs : run e St.new ops = some (rs, s)) (l : List α) (hl : asSlice s = some (.refs l, s)) (f t : Nat) (hft : f < t) (htl : t < l.length) :
    ∃ d d' s', drainNew s f t = some d ∧ d.doubleEnded.nextBack = some (l[t]?, d') ∧ d'.drop = some s' ∧
      asSlice s' = some (.refs (l.take f ++ l.drop t), s') ∧ (l.take f ++ l.drop t)[f]? = l[t]? ∧ s'.dropped = s.dropped ++ (l.take (t - 1)).drop f := by
  obtain ⟨d, d', s', h1, h2, h3, h4, h5, -, -⟩ := C17_double_ended_exact e he ops ha rs s hs l hl f t (by omega) htl [true]
  simp only [dCalls, dSpec, hft, if_true, Option.bind_eq_bind, Option.bind_eq_some_iff, Option.pure_def] at h2 h5
  obtain ⟨⟨x, d1⟩, h6, ⟨xs, d2⟩, h7, h8⟩ := h2
  cases h7; cases h8
  refine ⟨d, _, s', h1, h6, h3, h4, ?_, h5⟩
  rw [List.getElem?_append_right (by simp; omega)]
  simp [List.length_take]
  congr 1
  omega

example : dSpec [1, 2, 3, 4, 5] 1 3 [true, false, true] = ([some 4, some 2, none], 2, 2) := by decide
example : run u64Env St.new [.push 1, .push 2, .push 3, .push 4, .push 5] ≠ none := by decide

/-- `try_drain` refuses every valid range, and accepts some invalid ones. -/
theorem C17_try_drain_refuted : (∀ (s : St α) f t, f ≤ t ∧ t ≤ s.v.len → tryDrain s f t = none) ∧
    (tryDrain sample 9 5).isSome = true := by
  refine ⟨fun s f t h => ?_, rfl⟩
  simp [tryDrain, h.1]

/-- What `try_drain` accepts: exactly the ranges that end before they start, and past the end of the vector. -/
theorem C17_try_drain_exact (s : St α) (f t : Nat) : (tryDrain s f t).isSome = true ↔ t < f ∧ s.v.len < t := by
  unfold tryDrain
  split <;> simp <;> omega

/-! ### C18 -/

/-- `n` pushes of given elements. -/
def pushes (e : Env) (s : St α) : List α → Option (St α)
  | [] => some s
  | x :: xs => do
    let (_, s) ← push e s x
    pushes e s xs

/-- After a successful `reserve(n)`, the next `n` pushes succeed without calling the allocator. -/
theorem C18_reserve (e : Env) (he : Sane e) (ops : List (Op α)) (ha : ∀ op ∈ ops, Args e op) (rs : List (Res α)) (s s1 : St α)
    (hs : run e St.new ops = some (rs, s)) (n : Nat) (hn : e.esz * n < 9223372036854775808)
    (h1 : reserve e s n = some (.unit, s1)) (xs : List α) (hx : xs.length ≤ n) :
    ∃ l s2, asSlice s1 = some (.refs l, s1) ∧ pushes e s1 xs = some s2 ∧ asSlice s2 = some (.refs (l ++ xs), s2) ∧
      s2.tries = s1.tries ∧ s2.v.cap = s1.v.cap := by
  have view : ∀ (s : St α) (l : List α), VInv e s.v l → asSlice s = some (.refs l, s) := by
    intro s l h
    obtain ⟨rest, hd⟩ := h.data
    unfold asSlice
    rw [h.len, slice_spec s.v l rest hd _ _ (by omega)]; simp
  obtain ⟨rs', s0, l, h0, h2, hb, _, _⟩ := run_good he ops ha St.new [] (VInv.new e) rfl
  rw [hs] at h0; cases h0
  obtain ⟨r, s', l', h3, g, _, hc⟩ := reserve_step he s l h2 hb n hn
  rw [h1] at h3; cases h3
  obtain ⟨_, rfl⟩ := g.spec
  rcases hc with ⟨_, hc⟩ | ⟨hc, _⟩
  rotate_left
  · cases hc
  have key : ∀ (xs : List α) (s : St α) (l : List α), VInv e s.v l → xs.length ≤ s.v.cap - l.length →
      ∃ s2, pushes e s xs = some s2 ∧ VInv e s2.v (l ++ xs) ∧ s2.tries = s.tries ∧ s2.v.cap = s.v.cap := by
    intro xs
    induction xs with
    | nil => intro s l h _; exact ⟨s, rfl, by simpa using h, rfl, rfl⟩
    | cons x xs ih =>
      intro s l h hr
      simp only [List.length_cons] at hr
      have hne : s.v.len ≠ s.v.cap := by rw [h.len]; omega
      obtain ⟨v', p1, p2, _⟩ := pushRaw_spec s l h (by omega) x
      have hcap : v'.cap = s.v.cap := by
        unfold pushRaw at p1
        simp only [Option.bind_eq_bind, Option.bind_eq_some_iff, Option.pure_def, Option.some.injEq] at p1
        obtain ⟨w, hw, hw2⟩ := p1
        injection hw2 with hw3
        obtain ⟨w', hw', f, _⟩ := write_spec s.v s.v.len x (by
          unfold write at hw; split at hw
          · assumption
          · cases hw)
        rw [hw] at hw'; cases hw'
        rw [← hw3]; exact f.cap
      obtain ⟨s2, q1, q2, q3, q4⟩ := ih { s with v := v' } (l ++ [x]) p2 (by simp [hcap]; omega)
      refine ⟨s2, ?_, by simpa using q2, q3, q4.trans hcap⟩
      simp only [pushes, push, if_neg hne, p1, Option.bind_eq_bind, Option.bind_some, Option.pure_def]
      exact q1
  obtain ⟨s2, p1, p2, p3, p4⟩ := key xs s1 l' g.inv (by omega)
  exact ⟨l', s2, view _ _ g.inv, p1, view _ _ p2, p3, p4⟩

example : ∃ s1, reserve twice (St.new : St Nat) 5 = some (.unit, s1) ∧ s1.v.cap = 5 := ⟨_, rfl, rfl⟩

/-- The capacity is never less than the length. -/
theorem C18_capacity (e : Env) (he : Sane e) (ops : List (Op α)) (ha : ∀ op ∈ ops, Args e op) (rs : List (Res α)) (s : St α)
    (hs : run e St.new ops = some (rs, s)) : s.v.len ≤ s.v.cap := by
  obtain ⟨rs', s0, l, h0, h2, _, _, _⟩ := run_good he ops ha St.new [] (VInv.new e) rfl
  rw [hs] at h0; cases h0
  rw [h2.len]; exact h2.le

/-- Pushing `n` elements one by one onto a new vector copies at most `4 * n` elements, whatever the allocator grants. -/
theorem C18_amortised (e : Env) (he : Sane e) (xs : List α) :
    ∃ s, pushes e St.new xs = some s ∧ s.copied ≤ 4 * xs.length := by
  have key : ∀ (xs : List α) (s : St α) (l : List α), VInv e s.v l → Bal s → s.copied ≤ 3 * s.v.cap → s.copied ≤ 4 * l.length →
      ∃ s', pushes e s xs = some s' ∧ s'.copied ≤ 4 * (l.length + xs.length) := by
    intro xs
    induction xs with
    | nil => intro s l _ _ _ h; exact ⟨s, rfl, by simpa using h⟩
    | cons x xs ih =>
      intro s l h hb h3 h4
      obtain ⟨r, s1, l1, p1, g, hc⟩ := push_step he s l h hb x
      -- copies made by one push
      have hcop : s1.copied ≤ 3 * s1.v.cap ∧ s1.copied ≤ s.copied + (if s.v.len = s.v.cap then s.v.len else 0) ∧
          s.v.cap ≤ s1.v.cap := by
        have hraw : ∀ (s s1 : St α), pushRaw s x = some s1 → s1.copied = s.copied ∧ s1.v.cap = s.v.cap := by
          intro s s1 hp
          unfold pushRaw at hp
          simp only [Option.bind_eq_bind, Option.bind_eq_some_iff, Option.pure_def, Option.some.injEq] at hp
          obtain ⟨w, hw, rfl⟩ := hp
          obtain ⟨w', hw', f, _⟩ := write_spec s.v s.v.len x (by
            unfold write at hw; split at hw
            · assumption
            · cases hw)
          rw [hw] at hw'; cases hw'
          exact ⟨rfl, f.cap⟩
        unfold push at p1
        split at p1
        · rename_i hfull
          -- the growth
          have hg : (tryGrow e s).2.copied ≤ 3 * (tryGrow e s).2.v.cap ∧
              (tryGrow e s).2.copied ≤ s.copied + s.v.len ∧ s.v.cap ≤ (tryGrow e s).2.v.cap := by
            have hlen := h.len
            have hbd := h.bound
            have hge : s.v.cap ≤ e.esz * s.v.cap := Nat.le_mul_of_pos_left _ he.1.1
            have gen : ∀ a, a ≤ max s.v.cap 8 → (s.v.cap ≠ 0 → s.v.cap ≤ 3 * a) → (tryReserve e s a).2.copied ≤ 3 * (tryReserve e s a).2.v.cap ∧
                (tryReserve e s a).2.copied ≤ s.copied + s.v.len ∧ s.v.cap ≤ (tryReserve e s a).2.v.cap := by
              intro a ha1 ha2
              unfold tryReserve
              split
              · dsimp only
                split
                · dsimp only
                  rw [mod_W (by unfold W; omega)]
                  split <;> omega
                · dsimp only; omega
              · dsimp only; omega
            unfold tryGrow
            split
            · have := (firstCapacity_pos e).2
              exact gen _ (by omega) (by omega)
            · exact gen _ (by omega) (by omega)
          rw [if_pos hfull]
          generalize tryGrow e s = gr at *
          obtain ⟨b, s0⟩ := gr
          dsimp only at hg
          cases b with
          | false => cases p1; exact hg
          | true =>
            simp only [Option.bind_eq_bind, Option.bind_eq_some_iff, Option.pure_def, Option.some.injEq, Prod.mk.injEq] at p1
            obtain ⟨w, hw, rfl, rfl⟩ := p1
            obtain ⟨a1, a2⟩ := hraw s0 w hw
            rw [a1, a2]; exact hg
        · rename_i hfull
          rw [if_neg hfull]
          simp only [Option.bind_eq_bind, Option.bind_eq_some_iff, Option.pure_def, Option.some.injEq, Prod.mk.injEq] at p1
          obtain ⟨w, hw, rfl, rfl⟩ := p1
          obtain ⟨a1, a2⟩ := hraw s w hw
          rw [a1, a2]; omega
      have h4' : s1.copied ≤ 4 * l.length := by
        obtain ⟨_, h5, _⟩ := hcop
        have := h.len
        split at h5 <;> omega
      rcases hc with ⟨rfl, rfl, _, _⟩ | ⟨rfl, rfl, _, _⟩
      · obtain ⟨s', q1, q2⟩ := ih s1 (l ++ [x]) g.inv g.bal hcop.1 (by simp; omega)
        refine ⟨s', by simp [pushes, p1, q1], ?_⟩
        simp at q2 ⊢; omega
      · obtain ⟨s', q1, q2⟩ := ih s1 l1 g.inv g.bal hcop.1 h4'
        refine ⟨s', by simp [pushes, p1, q1], ?_⟩
        simp at q2 ⊢; omega
  obtain ⟨s, h1, h2⟩ := key xs St.new [] (VInv.new e) rfl (by simp [St.new]) (by simp [St.new])
  exact ⟨s, h1, by simpa using h2⟩

/-- **C15.** What counts as undefined behaviour in the model: reading a cell that is outside of the allocation or not initialised, writing outside of
the allocation, moving elements from or to cells outside of it. -/
theorem C15_ub (v : Vec α) (i src dst n : Nat) (x : α) :
    (read v i = none ↔ ∀ y, v.cells[i]? ≠ some (some y)) ∧
    (write v i x = none ↔ v.cells.length ≤ i) ∧
    (copyCells v src dst n = none ↔ n ≠ 0 ∧ (v.cells.length < src + n ∨ v.cells.length < dst + n)) := by
  refine ⟨?_, ?_, ?_⟩
  · unfold Verif.Vec.read
    rcases v.cells[i]? with _ | _ | y <;> simp
  · unfold write
    split <;> simp <;> omega
  · unfold copyCells
    by_cases hn : n = 0
    · simp [hn]
    · rw [if_neg hn]
      by_cases hb : src + n ≤ v.cells.length ∧ dst + n ≤ v.cells.length
      · rw [if_pos hb]; simp; omega
      · rw [if_neg hb]; simp [hn]; omega

/-- **C18.** What `C18_amortised` counts: a reallocation of a vector that has a capacity copies all its elements, the first allocation copies none; nothing is
counted when there is room. -/
theorem C18_counts (e : Env) (s : St α) (n : Nat) (h : (tryReserve e s n).1 = true) :
    (tryReserve e s n).2.copied = (if remaining s.v < n then (if s.v.cap = 0 then s.copied else s.copied + s.v.len) else s.copied) ∧
    (tryReserve e s n).2.tries = (if remaining s.v < n then s.tries + 1 else s.tries) := by
  by_cases hr : remaining s.v < n
  · by_cases ho : e.ok s.tries (bytes e ((s.v.len + n) % W)) = true
    · simp only [tryReserve, hr, ho, if_true]
      exact ⟨trivial, trivial⟩
    · simp [tryReserve, hr, ho] at h
  · simp only [tryReserve, hr, if_false]
    exact ⟨trivial, trivial⟩

/-- **C18.** The first allocation has room for 8 elements, or for as many as fit in a kilobyte, but for at least one. -/
theorem C18_first (e : Env) : firstCapacity e = max 1 (min 8 (1024 / e.esz)) := by
  unfold firstCapacity
  generalize 1024 / e.esz = q
  cases q with
  | zero => rfl
  | succ q =>
    simp only
    split
    · omega
    · omega

end Verif.Props.Vec
