import Verif.Vec.Sov
import Verif.Sum.Lemmas
import Verif.Props.Vec
import Verif.Props.Sum

/-! Property C20. -/
namespace Verif.Props.Sov
open Verif.Vec Verif.Layout Verif.Sum
variable {α : Type}

/-! ### When the guard destroys the container -/

theorem vec_wf : vecTy.WF := by
  have hr : Ty.WF .ref := by
    refine ⟨Props.Sum.pow2_8, ?_, ?_⟩
    · simp [Ty.nzHoles, Fv.WF, Fv.offsets, Fv.IsBytes]
    · simp [Ty.nzHoles, Fv.offsets]
  have hu : Ty.WF .unit := ⟨Props.Sum.pow2_1, trivial, by simp [Fv.offsets]⟩
  exact ⟨⟨⟨⟨hr, hu⟩, hr⟩, hr⟩, hu⟩

/-- For every element type: if the determinant of the container is one that the guard writes, then after `reserve` or `truncate`
have replaced the single value by a vector, the container says that it holds a single value, whatever the bytes of the vector. -/
theorem C20_scribbled_refuted (t : Ty) (h : t.WF) (hq : scribbles t = true) (src : Mem) :
    isOk (singleTy t).lay vecTy.lay (overwrite t src) = true := by
  have hs : (singleTy t).WF := ⟨h, Props.Sum.pow2_1, trivial, by simp [Fv.offsets]⟩
  have hq' : (provider (singleTy t).lay vecTy.lay).det.okQuiet = false := by simpa [scribbles] using hq
  unfold overwrite dropOkGuard isOk
  rw [if_pos ((Det.loud_trick _).1 hq')]
  exact (provider_shape (ty_good hs) (ty_good vec_wf)).loud.1 hq' _

/-- This is the case for `SingleOrVec<u64>`, whose single value then reads as the address of the elements. -/
theorem C20_u64_refuted : scribbles .u64 = true ∧
    ∀ src i, i < 8 → okPtr (singleTy .u64).lay vecTy.lay (overwrite .u64 src) i = src i := by
  refine ⟨by decide +kernel, fun src i hi => ?_⟩
  have e1 : (provider (singleTy .u64).lay vecTy.lay).det = .not (intoValueIsErr
    [(8, 0), (9, 0), (10, 0), (11, 0), (12, 0), (13, 0), (14, 0), (15, 0)]) := by decide +kernel
  have e2 : okOffset (singleTy .u64).lay vecTy.lay = 0 := by decide +kernel
  have e3 : errOffset (singleTy .u64).lay vecTy.lay = 0 := by decide +kernel
  have e4 : vecTy.lay.size = 24 := by decide +kernel
  unfold overwrite dropOkGuard okPtr mkErr
  dsimp only
  rw [e1, e2, e3, e4, if_pos (by decide)]
  have e5 : ∀ m : Mem, writeSelf (.not (intoValueIsErr
    [(8, 0), (9, 0), (10, 0), (11, 0), (12, 0), (13, 0), (14, 0), (15, 0)])) false m = m := fun m => rfl
  rw [e5]
  simp only [Det.ok, Det.err, into_ok, Mem.at]
  rw [into_err_not_mem]
  · simp only [Mem.write]
    rw [if_pos (by omega)]; simp
  · intro v hv
    simp only [List.mem_cons, Prod.mk.injEq, List.not_mem_nil, or_false] at hv
    omega

/-- Otherwise the container is the vector that was written. -/
theorem C20_quiet (t : Ty) (hq : scribbles t = false) (src : Mem) :
    overwrite t src = mkErr (singleTy t).lay vecTy.lay src := by
  unfold overwrite dropOkGuard
  split
  · exact ((provider (singleTy t).lay vecTy.lay).det.quiet.1 (by simpa [scribbles] using hq)) _
  · rfl

example : scribbles .u8 = true ∧ scribbles .ref = true ∧ scribbles (.tuple3 .u64 .u64 .u64) = false ∧
    scribbles (.tuple2 vecTy .bool) = false := by decide +kernel

/-! ### Histories -/

/-- The environment of a `SingleOrVec<T>`. -/
def envOf (t : Ty) (ok : Nat → Nat → Bool) : SEnv := ⟨⟨t.lay.size, ok⟩, scribbles t⟩

/-- No reservation is refused while the container holds a single value. -/
def AllGranted (e : SEnv) (o : Sov α) : List (SOp α) → Prop
  | [] => True
  | op :: ops => Granted e o op ∧ ∀ r o', sstep e o op = some (r, o') → AllGranted e o' ops

/-- Which operations met a refusal of the allocator. -/
def srefusals (e : SEnv) (o : Sov α) : List (SOp α) → List Bool
  | [] => []
  | op :: ops =>
    match sstep e o op with
    | none => []
    | some (_, o') => decide (o'.s.refused ≠ o.s.refused) :: srefusals e o' ops

theorem srun_good {e : SEnv} (he : Sane e.toEnv) (h8 : e.esz * 8 < 9223372036854775808) (hs : e.scr = false) (ops : List (SOp α))
    (ha : ∀ op ∈ ops, SArgs e op) (o : Sov α) (l : List α) (h : SInv e o l) (hg : AllGranted e o ops) :
    ∃ rs o' l', srun e o ops = some (rs, o') ∧ SInv e o' l' ∧ SpecRun (ops.map SOp.toOp) (srefusals e o ops) l rs l' ∧
      (o'.s.dropped ++ Props.Vec.outsAll (ops.map SOp.toOp) rs ++ l').Perm (o.s.dropped ++ (ops.map SOp.toOp).flatMap Op.ins ++ l) := by
  induction ops generalizing o l with
  | nil => exact ⟨[], o, l, rfl, h, rfl, by simp [Props.Vec.outsAll]⟩
  | cons op ops ih =>
    obtain ⟨r, o1, l1, h1, g⟩ := sstep_good he h8 hs o l h op (ha op (by simp)) hg.1
    obtain ⟨rs, o2, l2, h2, i2, c2, q2⟩ := ih (fun x hx => ha x (by simp [hx])) o1 l1 g.inv (hg.2 r o1 h1)
    refine ⟨r :: rs, o2, l2, by simp [srun, h1, h2], i2, ?_, ?_⟩
    · simp only [srefusals, h1, List.map_cons]
      exact ⟨l1, g.spec, c2⟩
    · simp only [Props.Vec.outsAll, List.flatMap_cons, List.map_cons]
      have g := g.ledger
      generalize outs op.toOp r = A at *
      generalize Props.Vec.outsAll (ops.map SOp.toOp) rs = B at *
      generalize (ops.map SOp.toOp).flatMap Op.ins = C at *
      have e1 : (o2.s.dropped ++ (A ++ B) ++ l2).Perm (A ++ (o2.s.dropped ++ B ++ l2)) := by
        simp only [← List.append_assoc]
        exact (List.perm_append_comm.append_right _).append_right _
      refine e1.trans ((q2.append_left _).trans ?_)
      have e2 : (A ++ (o1.s.dropped ++ C ++ l1)).Perm (C ++ (o1.s.dropped ++ A ++ l1)) := by
        refine List.Perm.trans (l₂ := A ++ (C ++ o1.s.dropped ++ l1)) ?_ ?_
        · exact ((List.perm_append_comm).append_right _).append_left _
        · simp only [← List.append_assoc]
          refine List.Perm.append_right _ ?_
          refine ((List.perm_append_comm (l₁ := A)).append_right _).trans ?_
          simp only [List.append_assoc]
          exact List.perm_append_comm.append_left _
      refine e2.trans ((g.append_left _).trans ?_)
      simp only [← List.append_assoc]
      refine List.Perm.append_right _ ?_
      simp only [List.append_assoc]
      refine List.perm_append_comm.trans ?_
      simp only [List.append_assoc]
      exact List.Perm.refl _

/-- For element types on which the guard does not scribble, any history in which no reservation is refused while the container
holds a single value is free of undefined behaviour and reports what the same operations report on a sequence; every element
is dropped or handed back exactly once.  What is missing from C20: the other element types, see `C20_scribbled_refuted`, and the
refused reservations, see `C20_refused_reserve_refuted`. -/
theorem C20_history_partial (t : Ty) (ok : Nat → Nat → Bool) (hq : scribbles t = false) (he : Sane (envOf t ok).toEnv)
    (h8 : t.lay.size * 8 < 9223372036854775808) (ops : List (SOp α)) (ha : ∀ op ∈ ops, SArgs (envOf t ok) op)
    (hg : AllGranted (envOf t ok) Sov.new ops) :
    ∃ rs o l, srun (envOf t ok) (Sov.new : Sov α) ops = some (rs, o) ∧
      SpecRun (ops.map SOp.toOp) (srefusals (envOf t ok) Sov.new ops) [] rs l ∧ o.slice = some l ∧ o.len = l.length ∧
      ((ops.map SOp.toOp).flatMap Op.ins).Perm (Props.Vec.outsAll (ops.map SOp.toOp) rs ++ o.s.dropped ++ l) ∧
      ∃ o', o.drop = some o' ∧ o'.s.allocs = o'.s.frees ∧ o'.s.dropped = o.s.dropped ++ l := by
  obtain ⟨rs, o, l, h1, h2, h3, h4⟩ := srun_good he h8 hq ops ha Sov.new [] ⟨VInv.new _, rfl⟩ hg
  obtain ⟨h5, h6⟩ := sov_slice o l h2
  refine ⟨rs, o, l, h1, h3, h5, h6, ?_, ?_⟩
  · simp only [Sov.new, St.new, List.nil_append, List.append_nil] at h4
    exact h4.symm.trans (List.perm_append_comm.append_right _)
  · obtain ⟨cur, s⟩ := o
    cases cur with
    | some y =>
      obtain ⟨rfl, hb⟩ := h2
      exact ⟨_, rfl, hb, rfl⟩
    | none =>
      obtain ⟨hv, hb⟩ := h2
      obtain ⟨s', q1, q2, q3, q4, _⟩ := dropVec_spec s l hv hb
      refine ⟨⟨none, s'⟩, by simp [Sov.drop, q1], ?_, q4⟩
      unfold Bal at q3; rw [q2] at q3; exact q3

/-- Without `reserve`, `truncate` and `extend`, the restriction on the element type and on the allocator disappear. -/
def NoGuard : SOp α → Bool
  | .push _ | .tryPush _ | .asSlice | .index _ | .len | .drop => true
  | _ => false

theorem sstep_scr (e : SEnv) (b : Bool) (o : Sov α) (op : SOp α) (h : NoGuard op = true) :
    sstep { e with scr := b } o op = sstep e o op := by
  cases op <;> simp [NoGuard] at h <;> rfl

theorem srun_scr (e : SEnv) (b : Bool) (ops : List (SOp α)) (h : ∀ op ∈ ops, NoGuard op = true) (o : Sov α) :
    srun { e with scr := b } o ops = srun e o ops ∧ srefusals { e with scr := b } o ops = srefusals e o ops := by
  induction ops generalizing o with
  | nil => exact ⟨rfl, rfl⟩
  | cons op ops ih =>
    have h1 := sstep_scr e b o op (h op (by simp))
    have ih := fun o => ih (fun x hx => h x (by simp [hx])) o
    constructor
    · simp only [srun, h1]
      cases sstep e o op with
      | none => rfl
      | some p => simp [(ih p.2).1]
    · simp only [srefusals, h1]
      cases sstep e o op with
      | none => rfl
      | some p => simp [(ih p.2).2]

/-- Pushing and reading works for every element type and every pattern of allocation failure. -/
theorem C20_push_partial (t : Ty) (ok : Nat → Nat → Bool) (he : Sane (envOf t ok).toEnv) (h8 : t.lay.size * 8 < 9223372036854775808)
    (ops : List (SOp α)) (hn : ∀ op ∈ ops, NoGuard op = true) :
    ∃ rs o l, srun (envOf t ok) (Sov.new : Sov α) ops = some (rs, o) ∧
      SpecRun (ops.map SOp.toOp) (srefusals (envOf t ok) Sov.new ops) [] rs l ∧ o.slice = some l ∧ o.len = l.length := by
  have hg : ∀ (ops : List (SOp α)) (o : Sov α), (∀ op ∈ ops, NoGuard op = true) → AllGranted { envOf t ok with scr := false } o ops := by
    intro ops
    induction ops with
    | nil => intro _ _; trivial
    | cons op ops ih =>
      intro o h
      refine ⟨fun n y hr => ?_, fun r o' _ => ih o' (fun x hx => h x (by simp [hx]))⟩
      have := h op (by simp)
      cases op <;> simp [NoGuard] at this <;> simp [SOp.reserved] at hr
  have ha : ∀ op ∈ ops, SArgs { envOf t ok with scr := false } op := by
    intro op ho
    have := hn op ho
    cases op <;> simp [NoGuard] at this <;> trivial
  obtain ⟨rs, o, l, h1, h2, h3, _⟩ := srun_good (e := { envOf t ok with scr := false }) he h8 rfl ops ha Sov.new [] ⟨VInv.new _, rfl⟩ (hg _ _ hn)
  rw [(srun_scr _ _ ops hn _).1] at h1
  rw [(srun_scr _ _ ops hn _).2] at h3
  exact ⟨rs, o, l, h1, h3, sov_slice o l h2⟩

/-- Pushes to a `SingleOrVec<u64>` with an allocator that refuses its second request. -/
example : (srun (envOf .u64 (fun i _ => i != 1)) Sov.new
    ([1, 2, 3, 4, 5, 6, 7, 8].map SOp.push ++ [.tryPush 9, .asSlice, .tryPush 9, .asSlice])).map (fun p => p.1.drop 8) =
    some [.back 9, .refs [1, 2, 3, 4, 5, 6, 7, 8], .unit, .refs [1, 2, 3, 4, 5, 6, 7, 8, 9]] := by
  decide +kernel

/-- `SingleOrVec<Tuple3<u64, u64, u64>>` going through both of its states. -/
example : srun (envOf (.tuple3 .u64 .u64 .u64) (fun _ b => decide (b < 9223372036854775808))) Sov.new
    [SOp.push 1, .reserve 1, .tryPush 2, .truncate 1, .asSlice, .extend [3, 4] 2, .asSlice, .drop] =
    some ([.unit, .unit, .unit, .unit, .refs [1], .unit, .refs [1, 3, 4], .unit], ⟨none, ⟨.new, [2, 1, 3, 4], 2, 1, 1, 0, 1⟩⟩) := by
  decide +kernel
example : Sane (envOf (.tuple3 .u64 .u64 .u64) (fun _ b => decide (b < 9223372036854775808))).toEnv := by
  refine ⟨by decide +kernel, fun i b h => ?_⟩
  simpa [envOf] using h

/-- When the allocator refuses a reservation made in the single state, the value is dropped and dropped again with the
container. -/
theorem C20_refused_reserve_refuted : ∃ o, srun (envOf (.tuple3 .u64 .u64 .u64) (fun _ _ => false)) Sov.new
    [SOp.push 7, .tryReserve 3, .asSlice, .drop] = some ([.unit, .allocErr, .refs [7], .unit], o) ∧ o.s.dropped = [7, 7] :=
  ⟨⟨none, ⟨.new, [7, 7], 1, 0, 0, 1, 0⟩⟩, by decide +kernel⟩

/-- In general: a refused reservation leaves the value in the single state although it has been dropped, after all that was dropped before. -/
theorem C20_refused_drop (e : SEnv) (y : α) (s : St α) (n : Nat)
    (hr : (Vec.tryReserve e.toEnv { s with v := .new } ((1 + n) % W)).1 = false) :
    ∃ s', (⟨some y, s⟩ : Sov α).tryReserve e n = some (false, ⟨some y, s'⟩) ∧
      s'.dropped = (Vec.tryReserve e.toEnv { s with v := .new } ((1 + n) % W)).2.dropped ++ [y] := by
  generalize hg : Vec.tryReserve e.toEnv { s with v := .new } ((1 + n) % W) = g at hr
  obtain ⟨b, s1⟩ := g
  cases hr
  refine ⟨{ s1 with dropped := s1.dropped ++ [y] }, ?_, rfl⟩
  simp only [Sov.tryReserve, Sov.fresh, hg]

/-- Truncating a single value away leaves a container that can be used exactly if the guard does not scribble on it. -/
theorem C20_truncate_iff (t : Ty) (ok : Nat → Nat → Bool) (y : α) (s : St α) :
    (∃ o, (⟨some y, s⟩ : Sov α).truncate (envOf t ok) 0 = some (.unit, o) ∧ o.cur = none ∧ o.s.dropped = s.dropped ++ [y]) ↔
      scribbles t = false := by
  have h : (⟨some y, s⟩ : Sov α).truncate (envOf t ok) 0 =
      if scribbles t then none else some (.unit, ⟨none, { s with v := .new, dropped := s.dropped ++ [y] }⟩) := by
    simp only [Sov.truncate, Sov.len, Sov.fresh, guardEnds, envOf]
    by_cases hs : scribbles t = true
    · simp [hs]
    · simp [hs]
  rw [h]
  cases scribbles t <;> simp

/-- Converting to a vector keeps the elements, or panics after dropping the single value when the allocator refuses. -/
theorem C20_into_vec (e : SEnv) (he : Sane e.toEnv) (o : Sov α) (l : List α) (h : SInv e o l) :
    ∃ r s, o.intoVec e = some (r, s) ∧
      if s.refused = o.s.refused then r = .unit ∧ Vec.slice s.v 0 s.v.len = some l ∧ s.dropped = o.s.dropped
      else r = .panic ∧ s.v = .new ∧ s.dropped = o.s.dropped ++ l := by
  obtain ⟨cur, s⟩ := o
  cases cur with
  | some y =>
    obtain ⟨rfl, hb⟩ := h
    obtain ⟨i0, b0⟩ := fresh_inv e.toEnv ⟨some y, s⟩ hb
    obtain ⟨r, s', l', h1, g, hc⟩ := push_step he _ [] i0 b0 y
    refine ⟨r, s', h1, ?_⟩
    rcases hc with ⟨c1, rfl, c3, c4⟩ | ⟨c1, rfl, c3, c4⟩
    · have c4 : s'.refused = s.refused := c4
      rw [if_pos c4]
      obtain ⟨rest, hd⟩ := g.inv.data
      have hl := g.inv.len
      refine ⟨c1, ?_, c3⟩
      rw [hl, Verif.Vec.slice_spec s'.v _ rest hd _ _ (by omega)]; simp
    · have c4 : s'.refused = s.refused + 1 := c4
      rw [if_neg (by show ¬ s'.refused = s.refused; omega)]
      refine ⟨c1, ?_, c3⟩
      unfold Vec.push at h1
      split at h1
      · rcases tryGrow_spec he _ [] i0 b0 with ⟨q1, r1⟩ | ⟨q1, q2⟩
        · generalize tryGrow e.toEnv (Sov.fresh ⟨some y, s⟩) = G at *
          obtain ⟨b, s1⟩ := G
          dsimp only at q1; subst q1
          obtain ⟨v', w1, _⟩ := pushRaw_spec s1 [] r1.inv r1.room y
          simp [w1] at h1
          rw [c1] at h1; cases h1.1
        · generalize tryGrow e.toEnv (Sov.fresh ⟨some y, s⟩) = G at *
          obtain ⟨b, s1⟩ := G
          dsimp only at q1 q2; subst q1 q2
          simp at h1; rw [← h1.2]; rfl
      · rename_i hne; exact absurd rfl hne
  | none =>
    obtain ⟨hv, hb⟩ := h
    obtain ⟨rest, hd⟩ := hv.data
    refine ⟨.unit, s, rfl, ?_⟩
    rw [if_pos rfl]
    refine ⟨rfl, ?_, rfl⟩
    have := hv.len; dsimp only at this hd
    rw [this, Verif.Vec.slice_spec s.v l rest hd _ _ (by omega)]; simp

example : SInv (envOf .u64 (fun _ _ => true)) ⟨some 7, St.new⟩ [7] ∧
    ((⟨some 7, St.new⟩ : Sov Nat).intoVec (envOf .u64 (fun _ _ => true))).map (fun p => slice p.2.v 0 p.2.v.len) = some (some [7]) :=
  ⟨⟨rfl, rfl⟩, by decide +kernel⟩

/-! ### Mutable iteration -/

/-- What a call yields and leaves of the indices that remain. -/
def callSpec (l : List Nat) : Call → Option Nat × List Nat
  | .next => (l.head?, l.drop 1)
  | .nextBack => (l.getLast?, l.take (l.length - 1))
  | .nth n => (l[n]?, l.drop (n + 1))
  | .nthBack n => (l.reverse[n]?, l.take (l.length - (n + 1)))

def callsSpec (l : List Nat) : List Call → List (Option Nat)
  | [] => []
  | c :: cs => (callSpec l c).1 :: callsSpec (callSpec l c).2 cs

/-- The total of the arguments of `nth`, plus one per call. -/
def advance : List Call → Nat
  | [] => 0
  | .nth n :: cs => n + 1 + advance cs
  | _ :: cs => 1 + advance cs

/-- The indices that remain. -/
def window (it : IterMut) : List Nat := List.range' it.start (it.stop - it.start)

theorem take_range' (s n k : Nat) : (List.range' s n).take k = List.range' s (min k n) := by
  apply List.ext_getElem <;> simp

theorem next_window (it : IterMut) : it.next.1 = (window it).head? ∧ window it.next.2 = (window it).drop 1 ∧
    it.next.2.start ≤ it.start + 1 := by
  unfold IterMut.next
  split
  · rename_i h
    have e : window it = it.start :: List.range' (it.start + 1) (it.stop - (it.start + 1)) := by
      unfold window
      rw [show it.stop - it.start = (it.stop - (it.start + 1)) + 1 by omega, List.range'_succ]
    rw [e]
    exact ⟨rfl, rfl, Nat.le_refl _⟩
  · rename_i h
    have e : window it = [] := by unfold window; rw [show it.stop - it.start = 0 by omega]; rfl
    rw [e]
    exact ⟨rfl, rfl, Nat.le_succ _⟩

theorem nextBack_window (it : IterMut) : it.nextBack.1 = (window it).getLast? ∧
    window it.nextBack.2 = (window it).take ((window it).length - 1) ∧ it.nextBack.2.start = it.start := by
  unfold IterMut.nextBack
  split
  · rename_i h
    refine ⟨?_, ?_, rfl⟩
    · simp only [window, List.getLast?_range']
      rw [if_neg (by omega)]; congr 1; omega
    · simp only [window, List.length_range', take_range']
      congr 1; omega
  · rename_i h
    have e : window it = [] := by unfold window; rw [show it.stop - it.start = 0 by omega]; rfl
    rw [e]
    exact ⟨rfl, rfl, rfl⟩

theorem call_window (it : IterMut) (c : Call) (h : it.start + advance [c] < W) :
    (it.call c).1 = (callSpec (window it) c).1 ∧ window (it.call c).2 = (callSpec (window it) c).2 ∧
      (it.call c).2.start ≤ it.start + advance [c] := by
  cases c with
  | next =>
    have := next_window it
    exact ⟨this.1, this.2.1, this.2.2⟩
  | nextBack =>
    have := nextBack_window it
    exact ⟨this.1, this.2.1, by show it.nextBack.2.start ≤ _; omega⟩
  | nth n =>
    simp only [advance] at h
    have e : (it.start + n) % W = it.start + n := Nat.mod_eq_of_lt (by omega)
    have hw : window { it with start := it.start + n } = (window it).drop n := by
      simp only [window, List.drop_range']
      congr 1
      · omega
      · omega
    obtain ⟨h1, h2, h3⟩ := next_window { it with start := it.start + n }
    simp only [IterMut.call, IterMut.nth, e, callSpec]
    rw [h1, h2, hw]
    refine ⟨?_, ?_, ?_⟩
    · rw [List.head?_drop]
    · rw [List.drop_drop]
    · dsimp only at h3; simp only [advance]; omega
  | nthBack n =>
    have hw : window { it with stop := it.stop - n } = (window it).take ((window it).length - n) := by
      simp only [window, List.length_range', take_range']
      congr 1; omega
    obtain ⟨h1, h2, h3⟩ := nextBack_window { it with stop := it.stop - n }
    simp only [IterMut.call, IterMut.nthBack, callSpec]
    rw [h1, h2, hw]
    refine ⟨?_, ?_, ?_⟩
    · by_cases hn : n < (window it).length
      · rw [List.getLast?_take, List.getElem?_reverse hn]
        rw [if_neg (by omega)]
        rw [show (window it).length - n - 1 = (window it).length - 1 - n by omega]
        rw [List.getElem?_eq_getElem (by omega)]; rfl
      · rw [show (window it).length - n = 0 by omega, List.getElem?_eq_none (by simp; omega)]; rfl
    · rw [List.take_take, List.length_take]
      congr 1; omega
    · rw [h3]; dsimp only; omega

/-- Mixtures of calls from both ends yield what the remaining elements are, as long as the positions stay within `usize`. -/
theorem C20_iter_mut_partial (len : Nat) (cs : List Call) (h : advance cs < W) :
    ((IterMut.new len).calls cs).1 = callsSpec (List.range len) cs := by
  have key : ∀ (cs : List Call) (it : IterMut), it.start + advance cs < W → (it.calls cs).1 = callsSpec (window it) cs := by
    intro cs
    induction cs with
    | nil => intro _ _; rfl
    | cons c cs ih =>
      intro it h
      have e : advance (c :: cs) = advance [c] + advance cs := by cases c <;> simp [advance]
      obtain ⟨h1, h2, h3⟩ := call_window it c (by omega)
      simp only [IterMut.calls, callsSpec, h1, ← h2]
      rw [ih _ (by omega)]
  have := key cs (IterMut.new len) (by simpa [IterMut.new] using h)
  rw [this]
  simp [window, IterMut.new, List.range_eq_range']

example : ((IterMut.new 6).calls [.nth 1, .nthBack 1, .nextBack, .next, .next]).1 = [some 1, some 4, some 3, some 2, none] := by
  decide +kernel

/-- What is left of the indices after some calls. -/
def callsLeft (l : List Nat) : List Call → List Nat
  | [] => l
  | c :: cs => callsLeft (callSpec l c).2 cs

/-- `len`, and with it `size_hint` and `count`, is the number of elements that are left, after every mixture of calls. -/
theorem C20_iter_mut_len_partial (len : Nat) (cs : List Call) (h : advance cs < W) :
    ((IterMut.new len).calls cs).2.len = (callsLeft (List.range len) cs).length := by
  have key : ∀ (cs : List Call) (it : IterMut), it.start + advance cs < W → (it.calls cs).2.len = (callsLeft (window it) cs).length := by
    intro cs
    induction cs with
    | nil => intro it _; simp [IterMut.calls, callsLeft, IterMut.len, window]
    | cons c cs ih =>
      intro it h
      have e : advance (c :: cs) = advance [c] + advance cs := by cases c <;> simp [advance]
      obtain ⟨h1, h2, h3⟩ := call_window it c (by omega)
      simp only [IterMut.calls, callsLeft, ← h2]
      rw [ih _ (by omega)]
  have := key cs (IterMut.new len) (by simpa [IterMut.new] using h)
  rw [this]
  simp [window, IterMut.new, List.range_eq_range']

example : ((IterMut.new 6).calls [.nth 1, .nthBack 1, .nth 7]).2.len = 0 ∧ ((IterMut.new 6).calls [.nth 1, .nthBack 1]).2.len = 2 := by
  decide +kernel

/-- `nth` with a huge argument moves the iterator backwards: the same element is borrowed mutably twice. -/
theorem C20_iter_mut_nth_refuted : ((IterMut.new 3).calls [.next, .nth 18446744073709551615]).1 = [some 0, some 0] := by
  decide +kernel

end Verif.Props.Sov
