import Verif.Vec.Steps

/-! Model of `BoxedSlice` (stabby-abi/src/alloc/boxed.rs). -/
namespace Verif.Vec
variable {α : Type}

/-- `BoxedSlice` (boxed.rs:277-281): `start` and `end`. -/
structure Boxed (α : Type) where
  block : Option (Block α)
  len : Nat
deriving DecidableEq

/-- `From<Vec> for BoxedSlice` (boxed.rs:379-398) after `Vec::into_raw_components` (vec.rs:270-284).  The state keeps the ledger. -/
def toBoxed (s : St α) : Option (Boxed α × St α) :=
  if s.v.cap ≠ 0 then
    match s.v.block with
    | none => none
    | some b => some (⟨some { b with pcap := s.v.cap }, s.v.len⟩, { s with v := .new })
  else some (⟨s.v.block, s.v.len⟩, { s with v := .new })

/-- The `capacity` slot of the prefix; reading it through a dangling pointer is undefined behaviour. -/
def Boxed.prefixCapacity (b : Boxed α) : Option Nat := b.block.map Block.pcap

/-- `BoxedSlice::into_raw_components` (boxed.rs:326-345): the capacity. -/
def Boxed.rawCapacity (b : Boxed α) : Option Nat := if b.len = 0 then some 0 else b.prefixCapacity

/-- `From<BoxedSlice> for Vec` (boxed.rs:399-426). -/
def toVec (b : Boxed α) (s : St α) : Option (St α) := do
  let c ← b.rawCapacity
  return { s with v := ⟨b.block, b.len, c⟩ }

/-- The buffer of a slice, seen as that of a vector. -/
def Boxed.buf (b : Boxed α) : Vec α := ⟨b.block, b.len, 0⟩

/-- `BoxedSlice::try_push` (boxed.rs:307-325). -/
def Boxed.tryPush (b : Boxed α) (x : α) : Option (Res α × Boxed α) := do
  if b.len ≥ (← b.prefixCapacity) then return (.back x, b)
  else do
    let v ← write b.buf b.len x
    return (.unit, ⟨v.block, b.len + 1⟩)

/-- `BoxedSlice::as_slice` (boxed.rs:296-300). -/
def Boxed.asSlice (b : Boxed α) : Option (List α) := slice b.buf 0 b.len

/-- `Drop for BoxedSlice` (boxed.rs:438-446). -/
def Boxed.drop (b : Boxed α) (s : St α) : Option (St α) := do
  let items ← b.asSlice
  let s := { s with dropped := s.dropped ++ items }
  if b.len ≠ 0 then
    match b.block with
    | none => none
    | some _ => some { s with frees := s.frees + 1 }
  else some s

/-- A variable holding a vector (inside the state) or a boxed slice. -/
inductive Var (α : Type) where
  | vec
  | boxed (b : Boxed α)
deriving DecidableEq

/-- Operations of a program converting back and forth. -/
inductive BOp (α : Type) where
  | vec (op : Op α)
  | box
  | unbox
  | tryPush (x : α)
  | asSlice
  | drop

/-- One operation; operations that do not type-check on the current variable are ignored.  Dropping leaves a new vector. -/
def bstep (e : Env) (p : Var α × St α) : BOp α → Option (Res α × Var α × St α)
  | .vec op =>
    match p.1 with
    | .vec => do
      let (r, s) ← step e p.2 op
      return (r, .vec, s)
    | .boxed _ => some (.unit, p)
  | .box =>
    match p.1 with
    | .vec => do
      let (b, s) ← toBoxed p.2
      return (.unit, .boxed b, s)
    | .boxed _ => some (.unit, p)
  | .unbox =>
    match p.1 with
    | .vec => some (.unit, p)
    | .boxed b => do return (.unit, .vec, ← toVec b p.2)
  | .tryPush x =>
    match p.1 with
    | .vec => do
      let (r, s) ← tryPush e p.2 x
      return (r, .vec, s)
    | .boxed b => do
      let (r, b) ← b.tryPush x
      return (r, .boxed b, p.2)
  | .asSlice =>
    match p.1 with
    | .vec => do return (.refs (← slice p.2.v 0 p.2.v.len), p)
    | .boxed b => do return (.refs (← b.asSlice), p)
  | .drop =>
    match p.1 with
    | .vec => do return (.unit, .vec, ← dropVec p.2)
    | .boxed b => do return (.unit, .vec, ← b.drop p.2)

/-- A history. -/
def brun (e : Env) (p : Var α × St α) : List (BOp α) → Option (List (Res α) × Var α × St α)
  | [] => some ([], p)
  | op :: ops => do
    let (r, p) ← bstep e p op
    let (rs, p) ← brun e p ops
    return (r :: rs, p)

/-! ### Invariant -/

/-- A boxed slice holding `l` and owning its block. -/
structure BInv (e : Env) (b : Boxed α) (l : List α) : Prop where
  len : b.len = l.length
  ne : l ≠ []
  blk : ∃ k, b.block = some k ∧ VInv e ⟨b.block, b.len, k.pcap⟩ l ∧ k.pcap ≠ 0

/-- The variable holds `l`, and the ledger is balanced. -/
def PInv (e : Env) (p : Var α × St α) (l : List α) : Prop :=
  match p.1 with
  | .vec => VInv e p.2.v l ∧ Bal p.2
  | .boxed b => BInv e b l ∧ p.2.allocs = p.2.frees + 1 ∧ p.2.v = .new

theorem toBoxed_spec {e : Env} (s : St α) (l : List α) (h : VInv e s.v l) (hb : Bal s) (hne : l ≠ []) :
    ∃ b, toBoxed s = some (b, { s with v := .new }) ∧ BInv e b l ∧ s.allocs = s.frees + 1 := by
  have hlen : l.length ≠ 0 := fun h0 => hne (List.length_eq_zero_iff.1 h0)
  have hcap : s.v.cap ≠ 0 := by have := h.le; omega
  have hbk := h.blk
  unfold toBoxed
  rw [if_pos hcap]
  cases hblk : s.v.block with
  | none => simp [hblk, hcap] at hbk
  | some k =>
    refine ⟨_, rfl, ⟨h.len, hne, _, rfl, ⟨h.len, ?_, ?_, ?_, h.bound⟩, hcap⟩, ?_⟩
    · obtain ⟨rest, hd⟩ := h.data
      exact ⟨rest, by rw [← hd]; simp [Vec.cells, hblk]⟩
    · have := h.size; simpa [Vec.cells, hblk] using this
    · simp [hcap]
    · unfold Bal live at hb; rw [if_neg hcap] at hb; exact hb

theorem BInv.slice_spec {e : Env} {b : Boxed α} {l : List α} (h : BInv e b l) : b.asSlice = some l := by
  obtain ⟨k, h1, h2, _⟩ := h.blk
  obtain ⟨rest, hd⟩ := h2.data
  unfold Boxed.asSlice
  rw [h.len, Verif.Vec.slice_spec b.buf l rest (by simpa [Boxed.buf, Vec.cells] using hd) _ _ (by omega)]
  simp

theorem toVec_spec {e : Env} (s : St α) (b : Boxed α) (l : List α) (h : BInv e b l) (hb : s.allocs = s.frees + 1) :
    ∃ s', toVec b s = some s' ∧ VInv e s'.v l ∧ Bal s' ∧ s'.dropped = s.dropped ∧ s'.refused = s.refused := by
  obtain ⟨k, h1, h2, h3⟩ := h.blk
  have hlen : b.len ≠ 0 := by rw [h.len]; exact fun h0 => h.ne (List.length_eq_zero_iff.1 h0)
  refine ⟨{ s with v := ⟨b.block, b.len, k.pcap⟩ }, ?_, h2, ?_, rfl, rfl⟩
  · simp [toVec, Boxed.rawCapacity, hlen, Boxed.prefixCapacity, h1]
  · unfold Bal live; simpa [h3] using hb

theorem write_pcap {v w : Vec α} {i : Nat} {x : α} {k : Block α} (h : write v i x = some w) (hk : v.block = some k) :
    ∃ k', w.block = some k' ∧ k'.pcap = k.pcap := by
  unfold write at h
  split at h
  · injection h with h
    refine ⟨⟨v.cells.set i (some x), k.pcap⟩, ?_, rfl⟩
    rw [← h]; simp only [Vec.withCells, hk]
  · cases h

theorem tryPush_spec {e : Env} (b : Boxed α) (l : List α) (h : BInv e b l) (x : α) :
    (b.tryPush x = some (.back x, b) ∧ ∃ k, b.block = some k ∧ k.pcap = l.length) ∨
    ∃ b', b.tryPush x = some (.unit, b') ∧ BInv e b' (l ++ [x]) := by
  obtain ⟨k, h1, h2, h3⟩ := h.blk
  have hle := h2.le
  dsimp only at hle
  by_cases hfull : b.len ≥ k.pcap
  · left
    refine ⟨by simp [Boxed.tryPush, Boxed.prefixCapacity, h1, hfull], k, h1, ?_⟩
    rw [h.len] at hfull; omega
  · right
    obtain ⟨v', p1, p2, _⟩ := pushRaw_spec (⟨⟨b.block, b.len, k.pcap⟩, [], 0, 0, 0, 0, 0⟩ : St α) l h2
      (by dsimp only; rw [h.len] at hfull; omega) x
    unfold pushRaw at p1
    simp only [Option.bind_eq_bind, Option.bind_eq_some_iff, Option.pure_def, Option.some.injEq] at p1
    obtain ⟨w, hw, hw2⟩ := p1
    injection hw2 with hw3
    have hwb : write b.buf b.len x = some { w with cap := 0 } := by
      unfold write at hw ⊢
      have e1 : b.buf.cells = (⟨b.block, b.len, k.pcap⟩ : Vec α).cells := rfl
      rw [e1]
      split
      · rename_i hlt
        rw [if_pos hlt] at hw
        cases hw
        simp [Vec.withCells, Boxed.buf, h1]
      · rename_i hlt
        rw [if_neg hlt] at hw; cases hw
    obtain ⟨w', hw', f, c⟩ := write_spec (⟨b.block, b.len, k.pcap⟩ : Vec α) b.len x (by
      unfold write at hw; split at hw
      · assumption
      · cases hw)
    rw [hw] at hw'; cases hw'
    have hwk := write_pcap hw h1
    obtain ⟨k', hk1, hk2⟩ := hwk
    refine ⟨⟨w.block, b.len + 1⟩, ?_, ⟨by simp [h.len], by simp, k', hk1, ?_, by rw [hk2]; exact h3⟩⟩
    · simp only [Boxed.tryPush, Boxed.prefixCapacity, h1, Option.map_some, Option.bind_eq_bind, Option.bind_some, hfull, if_false, hwb,
        Option.pure_def]
    · subst hw3
      have e1 : w.len = b.len := f.len
      have e2 : w.cap = k.pcap := f.cap
      have : ({ w with len := w.len + 1 } : Vec α) = ⟨w.block, b.len + 1, k'.pcap⟩ := by rw [e1, e2, hk2]
      rw [← this]; exact p2

theorem bdrop_spec {e : Env} (s : St α) (b : Boxed α) (l : List α) (h : BInv e b l) :
    b.drop s = some { s with dropped := s.dropped ++ l, frees := s.frees + 1 } := by
  obtain ⟨k, h1, _, _⟩ := h.blk
  have hlen : b.len ≠ 0 := by rw [h.len]; exact fun h0 => h.ne (List.length_eq_zero_iff.1 h0)
  simp [Boxed.drop, h.slice_spec, hlen, h1]

end Verif.Vec
