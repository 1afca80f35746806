import Verif.Vec.Steps
import Verif.Sum.Quiet
import Verif.Sum.Ty

/-! Model of `SingleOrVec` (stabby-abi/src/alloc/single_or_vec.rs).

The container is a `Result<Single<T, Alloc>, Vec<T, Alloc>>`.  At the level of bytes, the methods using `match_mut` overwrite the
result while the `OkGuard` of its old content is alive; the guard then sets the determinant to `ok` again (result.rs:509-519).
This level is used to find out when the guard destroys the new content (`scribbles`); the histories are then modelled on values. -/
namespace Verif.Vec
open Verif.Layout Verif.Sum
variable {α : Type}

/-- `Vec<T>` with a zero-sized allocator (vec.rs:24-29, 45-47; alloc/mod.rs:259-264): `NonNull` is a non-null pointer. -/
def vecTy : Ty := .struct (.struct (.fieldPair (.fieldPair (.fieldPair (.struct (.fieldPair .ref .unit)) .ref) .ref) .unit))
/-- `Single<T, Alloc>` with a zero-sized allocator (single_or_vec.rs:7-11). -/
def singleTy (t : Ty) : Ty := .struct (.fieldPair t .unit)

/-- `Drop for OkGuard` (result.rs:509-519). -/
def dropOkGuard (ok err : Lay) (m : Mem) : Mem :=
  if (provider ok err).det.isNicheTrick then (provider ok err).det.ok m else m

/-- `core::ptr::write(inner, Result::Err(vec))` followed by the drop of the guard, as in `try_reserve` and `truncate`
(single_or_vec.rs:199-221, 231-239); `src` are the bytes of the vector. -/
def overwrite (t : Ty) (src : Mem) : Mem := dropOkGuard (singleTy t).lay vecTy.lay (mkErr (singleTy t).lay vecTy.lay src)

/-- Whether the drop of the guard writes to the container. -/
def scribbles (t : Ty) : Bool := !(provider (singleTy t).lay vecTy.lay).det.okQuiet

/-- The environment of a vector, and whether the guard of `match_mut` scribbles on it. -/
structure SEnv extends Env where
  scr : Bool

/-- `SingleOrVec` (single_or_vec.rs:20-27): `some x` is the single state, otherwise the vector is the one of the state. -/
structure Sov (α : Type) where
  cur : Option α
  s : St α
deriving DecidableEq

/-- `SingleOrVec::new_in` (single_or_vec.rs:59-63). -/
def Sov.new : Sov α := ⟨none, St.new⟩

/-- The vector of a single state does not exist yet. -/
def Sov.fresh (o : Sov α) : St α := { o.s with v := .new }

/-- The end of a method that has overwritten the container under a guard. -/
def guardEnds (e : SEnv) (o : Sov α) : Option (Sov α) := if e.scr then none else some o

/-- `SingleOrVec::try_push` (single_or_vec.rs:125-173). -/
def Sov.tryPush (e : SEnv) (o : Sov α) (x : α) : Option (Res α × Sov α) :=
  match o.cur with
  | some y =>
    match tryReserve e.toEnv o.fresh 8 with
    | (true, s) => do
      let (_, s) ← push e.toEnv s y
      let (_, s) ← push e.toEnv s x
      return (.unit, ⟨none, s⟩)
    | (false, s) => some (.back x, ⟨some y, s⟩)
  | none =>
    if o.s.v.cap = 0 then some (.unit, ⟨some x, o.s⟩)
    else do
      let (r, s) ← Vec.tryPush e.toEnv o.s x
      return (r, ⟨none, s⟩)

/-- `SingleOrVec::push` (single_or_vec.rs:112-116); on a panic the value is dropped. -/
def Sov.push (e : SEnv) (o : Sov α) (x : α) : Option (Res α × Sov α) := do
  match ← o.tryPush e x with
  | (.back x, o) => some (.panic, { o with s := { o.s with dropped := o.s.dropped ++ [x] } })
  | p => some p

/-- `SingleOrVec::try_reserve` (single_or_vec.rs:197-224). -/
def Sov.tryReserve (e : SEnv) (o : Sov α) (n : Nat) : Option (Bool × Sov α) :=
  match o.cur with
  | some y =>
    match Vec.tryReserve e.toEnv o.fresh ((1 + n) % W) with
    | (true, s) => do
      let (_, s) ← Vec.push e.toEnv s y
      return (true, ← guardEnds e ⟨none, s⟩)
    | (false, s) => some (false, ⟨some y, { s with dropped := s.dropped ++ [y] }⟩)
  | none => match Vec.tryReserve e.toEnv o.s n with | (b, s) => some (b, ⟨none, s⟩)

/-- `SingleOrVec::len` (single_or_vec.rs:104-106). -/
def Sov.len (o : Sov α) : Nat :=
  match o.cur with
  | some _ => 1
  | none => o.s.v.len

/-- `SingleOrVec::truncate` (single_or_vec.rs:228-243). -/
def Sov.truncate (e : SEnv) (o : Sov α) (n : Nat) : Option (Res α × Sov α) :=
  if o.len ≤ n then some (.unit, o)
  else match o.cur with
    | some y => do return (.unit, ← guardEnds e ⟨none, { o.fresh with dropped := o.s.dropped ++ [y] }⟩)
    | none => do
      let (r, s) ← Vec.truncate o.s n
      return (r, ⟨none, s⟩)

/-- `SingleOrVec::as_slice` (single_or_vec.rs:245-250). -/
def Sov.slice (o : Sov α) : Option (List α) :=
  match o.cur with
  | some y => some [y]
  | none => Vec.slice o.s.v 0 o.s.v.len

/-- The loop of `extend`; on a panic the remaining items are dropped with the iterator. -/
def Sov.pushAll (e : SEnv) (o : Sov α) : List α → Option (Res α × Sov α)
  | [] => some (.unit, o)
  | x :: xs => do
    match ← o.push e x with
    | (.panic, o) => some (.panic, { o with s := { o.s with dropped := o.s.dropped ++ xs } })
    | (_, o) => o.pushAll e xs

/-- `Drop`: the drop of the result drops its content (result.rs:182-195). -/
def Sov.drop (o : Sov α) : Option (Sov α) :=
  match o.cur with
  | some y => some ⟨none, { o.fresh with dropped := o.s.dropped ++ [y] }⟩
  | none => do return ⟨none, ← dropVec o.s⟩

/-- `From<SingleOrVec> for Vec` (single_or_vec.rs:566-585); the vector is left in the state. -/
def Sov.intoVec (e : SEnv) (o : Sov α) : Option (Res α × St α) :=
  match o.cur with
  | some y => Vec.push e.toEnv o.fresh y
  | none => some (.unit, o.s)

/-- Operations of a history. -/
inductive SOp (α : Type) where
  | push (x : α)
  | tryPush (x : α)
  | reserve (n : Nat)
  | tryReserve (n : Nat)
  | truncate (n : Nat)
  /-- `extend` with the items of the iterator and its lower size hint. -/
  | extend (xs : List α) (lo : Nat)
  | asSlice
  | index (i : Nat)
  | len
  | drop

/-- One operation. -/
def sstep (e : SEnv) (o : Sov α) : SOp α → Option (Res α × Sov α)
  | .push x => o.push e x
  | .tryPush x => o.tryPush e x
  | .reserve n => do
    match ← o.tryReserve e n with
    | (true, o) => some (.unit, o)
    | (false, o) => some (.panic, o)
  | .tryReserve n => do
    match ← o.tryReserve e n with
    | (true, o) => some (.unit, o)
    | (false, o) => some (.allocErr, o)
  | .truncate n => o.truncate e n
  -- single_or_vec.rs:407-414
  | .extend xs lo => do
    match ← o.tryReserve e lo with
    | (false, o) => some (.panic, { o with s := { o.s with dropped := o.s.dropped ++ xs } })
    | (true, o) => o.pushAll e xs
  | .asSlice => do return (.refs (← o.slice), o)
  | .index i => do
    match (← o.slice)[i]? with
    | some x => some (.refs [x], o)
    | none => some (.panic, o)
  | .len => some (.count o.len, o)
  | .drop => do return (.unit, ← o.drop)

/-- A history. -/
def srun (e : SEnv) (o : Sov α) : List (SOp α) → Option (List (Res α) × Sov α)
  | [] => some ([], o)
  | op :: ops => do
    let (r, o) ← sstep e o op
    let (rs, o) ← srun e o ops
    return (r :: rs, o)

/-! ### `IterMut` (single_or_vec.rs:456-556) -/

/-- The indices of `IterMut`. -/
structure IterMut where
  start : Nat
  stop : Nat
deriving DecidableEq

/-- `into_iter` on a mutable borrow (single_or_vec.rs:442-451). -/
def IterMut.new (len : Nat) : IterMut := ⟨0, len⟩
/-- `next` (single_or_vec.rs:475-485): the index of the element that is borrowed. -/
def IterMut.next (it : IterMut) : Option Nat × IterMut :=
  if it.start < it.stop then (some it.start, { it with start := it.start + 1 }) else (none, it)
/-- `next_back` (single_or_vec.rs:523-533). -/
def IterMut.nextBack (it : IterMut) : Option Nat × IterMut :=
  if it.start < it.stop then (some (it.stop - 1), { it with stop := it.stop - 1 }) else (none, it)
/-- `nth` (single_or_vec.rs:510-513); the addition wraps in release builds. -/
def IterMut.nth (it : IterMut) (n : Nat) : Option Nat × IterMut := IterMut.next { it with start := (it.start + n) % W }
/-- `nth_back` (single_or_vec.rs:534-537). -/
def IterMut.nthBack (it : IterMut) (n : Nat) : Option Nat × IterMut := IterMut.nextBack { it with stop := it.stop - n }
/-- `len` (single_or_vec.rs:546-548). -/
def IterMut.len (it : IterMut) : Nat := it.stop - it.start

/-- Calls to an iterator. -/
inductive Call where
  | next
  | nextBack
  | nth (n : Nat)
  | nthBack (n : Nat)

def IterMut.call (it : IterMut) : Call → Option Nat × IterMut
  | .next => it.next
  | .nextBack => it.nextBack
  | .nth n => it.nth n
  | .nthBack n => it.nthBack n

def IterMut.calls (it : IterMut) : List Call → List (Option Nat) × IterMut
  | [] => ([], it)
  | c :: cs => ((it.call c).1 :: ((it.call c).2.calls cs).1, ((it.call c).2.calls cs).2)

/-! ### Invariant -/

/-- The container holds `l`. -/
def SInv (e : SEnv) (o : Sov α) (l : List α) : Prop :=
  match o.cur with
  | some y => l = [y] ∧ o.s.allocs = o.s.frees
  | none => VInv e.toEnv o.s.v l ∧ Bal o.s

/-- The operation of `Vec` with the same specification. -/
def SOp.toOp : SOp α → Op α
  | .push x => .push x
  | .tryPush x => .tryPush x
  | .reserve n => .reserve n
  | .tryReserve n => .tryReserve n
  | .truncate n => .truncate n
  | .extend xs lo => .extend xs lo none
  | .asSlice => .asSlice
  | .index i => .index i
  | .len => .len
  | .drop => .drop

/-- Requests stay below half of the address space. -/
def SArgs (e : SEnv) : SOp α → Prop
  | .reserve n | .tryReserve n => e.esz * (1 + n) < 9223372036854775808
  | .extend _ lo => e.esz * (1 + lo) < 9223372036854775808
  | _ => True

/-- The number of elements for which room is reserved. -/
def SOp.reserved : SOp α → Option Nat
  | .reserve n | .tryReserve n | .extend _ n => some n
  | _ => none

/-- The reservation of `op` is granted if it is made in the single state. -/
def Granted (e : SEnv) (o : Sov α) (op : SOp α) : Prop :=
  ∀ n y, op.reserved = some n → o.cur = some y → (Vec.tryReserve e.toEnv o.fresh ((1 + n) % W)).1 = true

structure SGood (e : SEnv) (o : Sov α) (l : List α) (op : Op α) (r : Res α) (o' : Sov α) (l' : List α) : Prop where
  inv : SInv e o' l'
  mono : o.s.refused ≤ o'.s.refused
  spec : Spec op (decide (o'.s.refused ≠ o.s.refused)) l r l'
  ledger : (o'.s.dropped ++ outs op r ++ l').Perm (o.s.dropped ++ op.ins ++ l)

theorem SGood.of_good {e : SEnv} {o : Sov α} {l : List α} {op : Op α} {r : Res α} {s' : St α} {l' : List α}
    (h : Good e.toEnv o.s l op r s' l') : SGood e o l op r ⟨none, s'⟩ l' :=
  ⟨⟨h.inv, h.bal⟩, h.mono, h.spec, h.ledger⟩

theorem fresh_inv (e : Env) (o : Sov α) (h : o.s.allocs = o.s.frees) : VInv e o.fresh.v [] ∧ Bal o.fresh :=
  ⟨VInv.new e, h⟩

theorem push_room {e : Env} (s : St α) (l : List α) (h : VInv e s.v l) (hb : Bal s) (hr : 1 ≤ s.v.cap - l.length) (x : α) :
    ∃ v', push e s x = some (.unit, { s with v := v' }) ∧ VInv e v' (l ++ [x]) ∧ Bal { s with v := v' } ∧ v'.cap = s.v.cap := by
  obtain ⟨v', h1, h2, h3⟩ := pushRaw_spec s l h hr x
  have hle := h.le
  refine ⟨v', ?_, h2, ?_, ?_⟩
  · unfold push
    rw [if_neg (by rw [h.len]; omega), h1]; rfl
  · unfold Bal at *; dsimp only; rw [h3]; exact hb
  · unfold pushRaw write at h1
    split at h1
    · simp only [Option.bind_eq_bind, Option.bind_some, Option.pure_def, Option.some.injEq, St.mk.injEq] at h1
      rw [← h1.1]
      unfold Vec.withCells; split <;> rfl
    · cases h1

theorem sov_tryPush {e : SEnv} (he : Sane e.toEnv) (h8 : e.esz * 8 < 9223372036854775808) (o : Sov α) (l : List α)
    (h : SInv e o l) (x : α) : ∃ r o' l', o.tryPush e x = some (r, o') ∧ SGood e o l (.tryPush x) r o' l' := by
  obtain ⟨cur, s⟩ := o
  cases cur with
  | some y =>
    obtain ⟨rfl, hb⟩ := h
    obtain ⟨i0, b0⟩ := fresh_inv e.toEnv ⟨some y, s⟩ hb
    unfold Sov.tryPush
    dsimp only
    rcases tryReserve_spec he _ [] i0 b0 8 h8 with ⟨h1, r1⟩ | ⟨h1, h2⟩
    · generalize Vec.tryReserve e.toEnv (Sov.fresh ⟨some y, s⟩) 8 = g at *
      obtain ⟨b, s1⟩ := g
      dsimp only at h1 r1
      subst h1
      have hroom : 8 ≤ s1.v.cap := r1.room
      obtain ⟨v1, p1, p2, p3, p4⟩ := push_room s1 [] r1.inv r1.bal (show 1 ≤ s1.v.cap - 0 by omega) y
      obtain ⟨v2, q1, q2, q3, _⟩ := push_room { s1 with v := v1 } ([] ++ [y]) p2 p3 (by dsimp only; rw [p4]; simp; omega) x
      refine ⟨.unit, ⟨none, { s1 with v := v2 }⟩, [y] ++ [x], by simp [p1, q1], ⟨q2, q3⟩, ?_, ?_, ?_⟩
      · exact Nat.le_of_eq r1.refused.symm
      · have : s1.refused = s.refused := r1.refused
        simp [Spec, this]
      · have : s1.dropped = s.dropped := r1.dropped
        simp only [outs, Op.ins, this, List.append_nil, List.append_assoc]
        exact List.Perm.append_left _ (List.Perm.swap _ _ _)
    · generalize Vec.tryReserve e.toEnv (Sov.fresh ⟨some y, s⟩) 8 = g at *
      obtain ⟨b, s1⟩ := g
      dsimp only at h1 h2
      subst h1 h2
      exact ⟨_, _, [y], rfl, ⟨rfl, hb⟩, Nat.le_succ _, by simp [Spec, Sov.fresh], by simp [outs, Op.ins, Sov.fresh]⟩
  | none =>
    obtain ⟨hv, hb⟩ := h
    unfold Sov.tryPush
    dsimp only at hv hb ⊢
    split
    · rename_i hc
      have hl : l = [] := by
        have := hv.le; rw [hc] at this; exact List.length_eq_zero_iff.1 (by omega)
      subst hl
      refine ⟨_, _, [x], rfl, ⟨rfl, ?_⟩, Nat.le_refl _, by simp [Spec], by simp [outs, Op.ins]⟩
      unfold Bal live at hb; rw [if_pos hc] at hb; exact hb
    · obtain ⟨r, s', l', h1, g⟩ := tryPush_step he s l hv hb x
      exact ⟨r, ⟨none, s'⟩, l', by simp [h1], SGood.of_good (o := ⟨none, s⟩) g⟩

theorem sov_push {e : SEnv} (he : Sane e.toEnv) (h8 : e.esz * 8 < 9223372036854775808) (o : Sov α) (l : List α)
    (h : SInv e o l) (x : α) : ∃ r o' l', o.push e x = some (r, o') ∧ SGood e o l (.push x) r o' l' ∧
      (r = .unit ∧ o'.s.refused = o.s.refused ∨ r = .panic ∧ o.s.refused < o'.s.refused) := by
  obtain ⟨r, o', l', h1, g⟩ := sov_tryPush he h8 o l h x
  have hs := g.spec
  have hm := g.mono
  have hl := g.ledger
  simp only [Spec] at hs
  by_cases hr : o'.s.refused = o.s.refused
  · simp only [hr, ne_eq, not_true_eq_false, decide_false, Bool.false_eq_true, if_false] at hs
    obtain ⟨rfl, rfl⟩ := hs
    refine ⟨.unit, o', _, by simp [Sov.push, h1], ⟨g.inv, hm, by simp [Spec, hr], hl⟩, .inl ⟨rfl, hr⟩⟩
  · simp only [hr, ne_eq, not_false_eq_true, decide_true, if_true] at hs
    obtain ⟨rfl, rfl⟩ := hs
    refine ⟨.panic, { o' with s := { o'.s with dropped := o'.s.dropped ++ [x] } }, l', by simp [Sov.push, h1], ⟨?_, hm, ?_, ?_⟩,
      .inr ⟨rfl, by show o.s.refused < o'.s.refused; omega⟩⟩
    · exact g.inv
    · simp [Spec, hr]
    · simpa [outs, Op.ins] using hl

theorem sov_pushAll {e : SEnv} (he : Sane e.toEnv) (h8 : e.esz * 8 < 9223372036854775808) (xs : List α) (o : Sov α) (l : List α)
    (h : SInv e o l) : ∃ r o' l', o.pushAll e xs = some (r, o') ∧ SInv e o' l' ∧
      (r = .unit ∧ o'.s.refused = o.s.refused ∧ l' = l ++ xs ∨
       r = .panic ∧ o.s.refused < o'.s.refused ∧ ∃ k, k ≤ xs.length ∧ l' = l ++ xs.take k) ∧
      (o'.s.dropped ++ l').Perm (o.s.dropped ++ xs ++ l) := by
  induction xs generalizing o l with
  | nil => exact ⟨_, _, l, rfl, h, .inl ⟨rfl, rfl, by simp⟩, by simp⟩
  | cons x xs ih =>
    obtain ⟨r, o1, l1, h1, g, hcase⟩ := sov_push he h8 o l h x
    have hl := g.ledger
    rcases hcase with ⟨rfl, hrf⟩ | ⟨rfl, hrf⟩
    · have hs := g.spec
      simp only [Spec, hrf, ne_eq, not_true_eq_false, decide_false, Bool.false_eq_true, if_false] at hs
      obtain ⟨_, rfl⟩ := hs
      obtain ⟨r2, o2, l2, h2, i2, c2, p2⟩ := ih o1 _ g.inv
      refine ⟨r2, o2, l2, ?_, i2, ?_, ?_⟩
      · simp only [Sov.pushAll, h1]; exact h2
      · rcases c2 with ⟨c1, c2, c3⟩ | ⟨c1, c2, k, c3, c4⟩
        · exact .inl ⟨c1, c2.trans hrf, by rw [c3]; simp⟩
        · exact .inr ⟨c1, by omega, k + 1, by simp; omega, by rw [c4]; simp⟩
      · refine p2.trans ?_
        simp only [outs, Op.ins, List.append_nil] at hl
        have a : (o1.s.dropped ++ xs ++ (l ++ [x])).Perm (xs ++ (o1.s.dropped ++ (l ++ [x]))) := by
          rw [← List.append_assoc xs]; exact List.perm_append_comm.append_right _
        refine a.trans ((hl.append_left xs).trans ?_)
        have b : (xs ++ (o.s.dropped ++ [x] ++ l)).Perm ((o.s.dropped ++ [x] ++ xs) ++ l) := by
          rw [← List.append_assoc]; exact List.perm_append_comm.append_right _
        simpa using b
    · have hne : o1.s.refused ≠ o.s.refused := by omega
      have hs := g.spec
      simp only [Spec, hne, ne_eq, not_false_eq_true, decide_true, if_true, true_and] at hs
      subst hs
      refine ⟨.panic, { o1 with s := { o1.s with dropped := o1.s.dropped ++ xs } }, l1, ?_, g.inv, .inr ⟨rfl, hrf, 0, by simp, by simp⟩, ?_⟩
      · simp only [Sov.pushAll, h1]; rfl
      · simp only [outs, Op.ins, List.append_nil] at hl
        have a : (o1.s.dropped ++ xs ++ l1).Perm (xs ++ (o1.s.dropped ++ l1)) := by
          rw [← List.append_assoc xs]; exact List.perm_append_comm.append_right _
        refine a.trans ((hl.append_left xs).trans ?_)
        have b : (xs ++ (o.s.dropped ++ [x] ++ l1)).Perm ((o.s.dropped ++ [x] ++ xs) ++ l1) := by
          rw [← List.append_assoc]; exact List.perm_append_comm.append_right _
        simpa using b

theorem sov_tryReserve {e : SEnv} (he : Sane e.toEnv) (hs : e.scr = false) (o : Sov α) (l : List α)
    (h : SInv e o l) (n : Nat) (hn : e.esz * (1 + n) < 9223372036854775808)
    (hg : ∀ y, o.cur = some y → (Vec.tryReserve e.toEnv o.fresh ((1 + n) % W)).1 = true) :
    ∃ b o', o.tryReserve e n = some (b, o') ∧ SInv e o' l ∧ o'.s.dropped = o.s.dropped ∧
      (b = true ∧ o'.s.refused = o.s.refused ∧ n ≤ o'.s.v.cap - l.length ∧ o'.cur = none ∨ b = false ∧ o.s.refused < o'.s.refused) := by
  have h1n : e.esz * n < 9223372036854775808 := by rw [Nat.mul_add] at hn; omega
  have hge : 1 + n ≤ e.esz * (1 + n) := Nat.le_mul_of_pos_left _ he.1.1
  have hW : (1 + n) % W = 1 + n := Nat.mod_eq_of_lt (by unfold W; omega)
  rw [hW] at hg
  obtain ⟨cur, s⟩ := o
  cases cur with
  | some y =>
    obtain ⟨rfl, hb⟩ := h
    obtain ⟨i0, b0⟩ := fresh_inv e.toEnv ⟨some y, s⟩ hb
    unfold Sov.tryReserve
    dsimp only
    have hg := hg y rfl
    rw [hW]
    rcases tryReserve_spec he _ [] i0 b0 (1 + n) hn with ⟨h1, r1⟩ | ⟨h1, h2⟩
    · generalize Vec.tryReserve e.toEnv (Sov.fresh ⟨some y, s⟩) (1 + n) = g at *
      obtain ⟨b, s1⟩ := g
      dsimp only at h1 r1
      subst h1
      have hroom : 1 + n ≤ s1.v.cap := r1.room
      obtain ⟨v1, p1, p2, p3, p4⟩ := push_room s1 [] r1.inv r1.bal (show 1 ≤ s1.v.cap - 0 by omega) y
      refine ⟨true, ⟨none, { s1 with v := v1 }⟩, by simp [p1, guardEnds, hs], ⟨p2, p3⟩, r1.dropped, .inl ⟨rfl, r1.refused, ?_, rfl⟩⟩
      show n ≤ v1.cap - 1
      rw [p4]; omega
    · rw [hg] at h1; cases h1
  | none =>
    obtain ⟨hv, hb⟩ := h
    unfold Sov.tryReserve
    dsimp only at hv hb ⊢
    rcases tryReserve_spec he s l hv hb n h1n with ⟨h1, r1⟩ | ⟨h1, h2⟩
    · generalize Vec.tryReserve e.toEnv s n = g at *
      obtain ⟨b, s1⟩ := g
      dsimp only at h1 r1
      subst h1
      exact ⟨_, _, rfl, ⟨r1.inv, r1.bal⟩, r1.dropped, .inl ⟨rfl, r1.refused, r1.room, rfl⟩⟩
    · generalize Vec.tryReserve e.toEnv s n = g at *
      obtain ⟨b, s1⟩ := g
      dsimp only at h1 h2
      subst h1 h2
      exact ⟨_, _, rfl, ⟨hv, hb⟩, rfl, .inr ⟨rfl, Nat.lt_succ_self _⟩⟩

theorem sov_slice {e : SEnv} (o : Sov α) (l : List α) (h : SInv e o l) : o.slice = some l ∧ o.len = l.length := by
  obtain ⟨cur, s⟩ := o
  cases cur with
  | some y => obtain ⟨rfl, _⟩ := h; exact ⟨rfl, rfl⟩
  | none =>
    obtain ⟨hv, _⟩ := h
    obtain ⟨rest, hd⟩ := hv.data
    have := hv.len
    dsimp only at this hd
    refine ⟨?_, this⟩
    show Vec.slice s.v 0 s.v.len = some l
    rw [this, slice_spec s.v l rest hd _ _ (by omega)]; simp

theorem sov_truncate {e : SEnv} (hs : e.scr = false) (o : Sov α) (l : List α)
    (h : SInv e o l) (n : Nat) : ∃ r o' l', o.truncate e n = some (r, o') ∧ SGood e o l (.truncate n) r o' l' := by
  have hlen := (sov_slice o l h).2
  unfold Sov.truncate
  split
  · rename_i hn
    rw [hlen] at hn
    exact ⟨_, _, l, rfl, h, Nat.le_refl _, ⟨rfl, (List.take_of_length_le hn).symm⟩, by simp [outs, Op.ins]⟩
  · rename_i hn
    obtain ⟨cur, s⟩ := o
    cases cur with
    | some y =>
      obtain ⟨rfl, hb⟩ := h
      have : n = 0 := by simp [Sov.len] at hn; exact hn
      subst this
      refine ⟨.unit, ⟨none, { Sov.fresh ⟨some y, s⟩ with dropped := s.dropped ++ [y] }⟩, [], by simp [guardEnds, hs], ⟨VInv.new _, hb⟩, Nat.le_refl _, ⟨rfl, rfl⟩, by simp [outs, Op.ins]⟩
    | none =>
      obtain ⟨hv, hb⟩ := h
      obtain ⟨r, s', l', h1, g⟩ := truncate_step s l hv hb n
      exact ⟨r, ⟨none, s'⟩, l', by simp [h1], SGood.of_good (o := ⟨none, s⟩) g⟩

theorem sstep_good {e : SEnv} (he : Sane e.toEnv) (h8 : e.esz * 8 < 9223372036854775808) (hs : e.scr = false) (o : Sov α) (l : List α)
    (h : SInv e o l) (op : SOp α) (ha : SArgs e op) (hg : Granted e o op) :
    ∃ r o' l', sstep e o op = some (r, o') ∧ SGood e o l op.toOp r o' l' := by
  obtain ⟨hsl, hlen⟩ := sov_slice o l h
  cases op with
  | push x => obtain ⟨r, o', l', h1, h2, _⟩ := sov_push he h8 o l h x; exact ⟨r, o', l', h1, h2⟩
  | tryPush x => exact sov_tryPush he h8 o l h x
  | reserve n =>
    obtain ⟨b, o', h1, h2, h3, h4⟩ := sov_tryReserve he hs o l h n ha (fun y hy => hg n y rfl hy)
    rcases h4 with ⟨rfl, q, _⟩ | ⟨rfl, q⟩
    · exact ⟨.unit, o', l, by simp [sstep, h1], h2, Nat.le_of_eq q.symm, by simp [Spec, SOp.toOp, q], by simp [outs, SOp.toOp, Op.ins, h3]⟩
    · exact ⟨.panic, o', l, by simp [sstep, h1], h2, Nat.le_of_lt q, by simp [Spec, SOp.toOp, Nat.ne_of_gt q], by simp [outs, SOp.toOp, Op.ins, h3]⟩
  | tryReserve n =>
    obtain ⟨b, o', h1, h2, h3, h4⟩ := sov_tryReserve he hs o l h n ha (fun y hy => hg n y rfl hy)
    rcases h4 with ⟨rfl, q, _⟩ | ⟨rfl, q⟩
    · exact ⟨.unit, o', l, by simp [sstep, h1], h2, Nat.le_of_eq q.symm, by simp [Spec, SOp.toOp, q], by simp [outs, SOp.toOp, Op.ins, h3]⟩
    · exact ⟨.allocErr, o', l, by simp [sstep, h1], h2, Nat.le_of_lt q, by simp [Spec, SOp.toOp, Nat.ne_of_gt q], by simp [outs, SOp.toOp, Op.ins, h3]⟩
  | truncate n => exact sov_truncate hs o l h n
  | extend xs lo =>
    obtain ⟨b, o1, h1, h2, h3, h4⟩ := sov_tryReserve he hs o l h lo ha (fun y hy => hg lo y rfl hy)
    rcases h4 with ⟨rfl, q, _⟩ | ⟨rfl, q⟩
    · obtain ⟨r, o2, l2, p1, p2, p3, p4⟩ := sov_pushAll he h8 xs o1 l h2
      refine ⟨r, o2, l2, by simp [sstep, h1, p1], p2, ?_, ?_, ?_⟩
      · rcases p3 with ⟨_, w, _⟩ | ⟨_, w, _⟩ <;> omega
      · rcases p3 with ⟨w1, w2, w3⟩ | ⟨w1, w2, k, w3, w4⟩
        · simp [Spec, SOp.toOp, w1, w2, w3, q]
        · have : o2.s.refused ≠ o.s.refused := by omega
          simp only [Spec, SOp.toOp, this, ne_eq, not_false_eq_true, decide_true, if_true]
          exact ⟨w1, k, w3, w4⟩
      · have : outs (SOp.extend xs lo).toOp r = [] := by rcases p3 with ⟨w1, _⟩ | ⟨w1, _⟩ <;> rw [w1] <;> rfl
        rw [this, ← h3]
        simpa [SOp.toOp, Op.ins] using p4
    · refine ⟨.panic, { o1 with s := { o1.s with dropped := o1.s.dropped ++ xs } }, l, by simp [sstep, h1], h2, Nat.le_of_lt q, ?_, ?_⟩
      · have : o1.s.refused ≠ o.s.refused := by omega
        simp only [Spec, SOp.toOp, this, ne_eq, not_false_eq_true, decide_true, if_true, true_and]
        exact ⟨0, Nat.zero_le _, by simp⟩
      · simp [outs, SOp.toOp, Op.ins, h3]
  | asSlice => exact ⟨.refs l, o, l, by simp [sstep, hsl], h, Nat.le_refl _, ⟨rfl, rfl⟩, by simp [outs, SOp.toOp, Op.ins]⟩
  | index i =>
    cases hi : l[i]? with
    | none => exact ⟨.panic, o, l, by simp [sstep, hsl, hi], h, Nat.le_refl _, by simp [Spec, SOp.toOp, hi], by simp [outs, SOp.toOp, Op.ins]⟩
    | some x => exact ⟨.refs [x], o, l, by simp [sstep, hsl, hi], h, Nat.le_refl _, by simp [Spec, SOp.toOp, hi], by simp [outs, SOp.toOp, Op.ins]⟩
  | len => exact ⟨.count l.length, o, l, by simp [sstep, hlen], h, Nat.le_refl _, ⟨rfl, rfl⟩, by simp [outs, SOp.toOp, Op.ins]⟩
  | drop =>
    obtain ⟨cur, s⟩ := o
    cases cur with
    | some y =>
      obtain ⟨rfl, hb⟩ := h
      exact ⟨.unit, ⟨none, { Sov.fresh ⟨some y, s⟩ with dropped := s.dropped ++ [y] }⟩, [], rfl, ⟨VInv.new _, hb⟩, Nat.le_refl _, ⟨rfl, rfl⟩,
        by simp [outs, SOp.toOp, Op.ins]⟩
    | none =>
      obtain ⟨hv, hb⟩ := h
      obtain ⟨s', h1, h2, h3, h4, h5, _⟩ := dropVec_spec s l hv hb
      refine ⟨.unit, ⟨none, s'⟩, [], by simp [sstep, Sov.drop, h1], ⟨by dsimp only; rw [h2]; exact VInv.new _, h3⟩, Nat.le_of_eq h5.symm, ⟨rfl, rfl⟩,
        by simp [outs, SOp.toOp, Op.ins, h4]⟩

end Verif.Vec
