import Verif.Vec.Boxed
import Verif.Props.Vec

/-! Property C19. -/
namespace Verif.Props.Boxed
open Verif.Vec Verif.Props.Vec
variable {α : Type}

/-- What an operation may report and leave on the sequence `l`; `boxed` says that the variable holds a boxed slice, and `full` that
this slice has used up the capacity of the vector it was made from. -/
def BSpec (op : BOp α) (boxed full refused : Bool) (l : List α) (r : Res α) (l' : List α) : Prop :=
  match op with
  | .vec op => if boxed then r = .unit ∧ l' = l else Spec op refused l r l'
  | .box | .unbox => r = .unit ∧ l' = l
  | .tryPush x => if (if boxed then full else refused) then r = .back x ∧ l' = l else r = .unit ∧ l' = l ++ [x]
  | .asSlice => r = .refs l ∧ l' = l
  | .drop => r = .unit ∧ l' = []

/-- Elements handed over and handed back. -/
def BOp.ins : BOp α → List α
  | .vec op => op.ins
  | .tryPush x => [x]
  | _ => []
def bouts : BOp α → Res α → List α
  | .vec op, r => outs op r
  | _, .back x => [x]
  | _, _ => []

/-- Requests stay below half of the address space; iterators respect their upper bounds. -/
def BArgs (e : Env) : BOp α → Prop
  | .vec op => Args e op
  | _ => True

def isBoxed : Var α → Bool
  | .vec => false
  | .boxed _ => true
/-- The slice fills its allocation. -/
def isFull : Var α → Bool
  | .vec => false
  | .boxed b => match b.block with
    | none => true
    | some k => k.cells.length == b.len

def _root_.Verif.Vec.BOp.isBox : BOp α → Bool
  | .box => true
  | _ => false

/-- A vector is only turned into a slice while it has elements. -/
def BoxesNonEmpty (e : Env) (p : Var α × St α) : List (BOp α) → Prop
  | [] => True
  | op :: ops =>
    (op.isBox = true → p.1 = .vec → p.2.v.len ≠ 0) ∧
    ∀ r p', bstep e p op = some (r, p') → BoxesNonEmpty e p' ops

/-- Elements that a vector ignores because the call does not type-check are not handed over. -/
def realIns (p : Var α × St α) : BOp α → List α
  | .vec op => if isBoxed p.1 then [] else op.ins
  | op => BOp.ins op

structure BGood (e : Env) (p : Var α × St α) (l : List α) (op : BOp α) (r : Res α) (p' : Var α × St α) (l' : List α) : Prop where
  inv : PInv e p' l'
  spec : BSpec op (isBoxed p.1) (isFull p.1) (decide (p'.2.refused ≠ p.2.refused)) l r l'
  ledger : (p'.2.dropped ++ bouts op r ++ l').Perm (p.2.dropped ++ realIns p op ++ l)

theorem bouts_unit (op : BOp α) : bouts op .unit = [] := by
  cases op with
  | vec op => cases op <;> rfl
  | _ => rfl

theorem bstep_good {e : Env} (he : Sane e) (p : Var α × St α) (l : List α) (h : PInv e p l) (op : BOp α) (ha : BArgs e op)
    (hne : op.isBox = true → p.1 = .vec → p.2.v.len ≠ 0) :
    ∃ r p' l', bstep e p op = some (r, p') ∧ BGood e p l op r p' l' := by
  obtain ⟨var, s⟩ := p
  cases var with
  | vec =>
    obtain ⟨hv, hb⟩ := h
    cases op with
    | vec op =>
      obtain ⟨r, s', l', h1, g⟩ := step_good he s l hv hb op ha
      exact ⟨r, (.vec, s'), l', by simp [bstep, h1], ⟨g.inv, g.bal⟩, g.spec, g.ledger⟩
    | box =>
      have : l ≠ [] := by
        intro h0; apply hne rfl rfl
        show s.v.len = 0
        rw [hv.len, h0]; rfl
      obtain ⟨b, h1, h2, h3⟩ := toBoxed_spec s l hv hb this
      exact ⟨.unit, (.boxed b, { s with v := .new }), l, by simp [bstep, h1], ⟨h2, h3, rfl⟩, ⟨rfl, rfl⟩, by simp [bouts, realIns, BOp.ins]⟩
    | unbox => exact ⟨.unit, (.vec, s), l, rfl, ⟨hv, hb⟩, ⟨rfl, rfl⟩, by simp [bouts, realIns, BOp.ins]⟩
    | tryPush x =>
      obtain ⟨r, s', l', h1, g⟩ := tryPush_step he s l hv hb x
      refine ⟨r, (.vec, s'), l', by simp [bstep, h1], ⟨g.inv, g.bal⟩, by have := g.spec; simpa [BSpec, Spec, isBoxed] using this, ?_⟩
      have := g.ledger
      have e1 : bouts (.tryPush x) r = outs (.tryPush x) r ∨ ∃ z, r = .moved z ∨ ∃ z, r = .yielded z := by
        cases r <;> simp [bouts, outs]
      have hr : r = .back x ∨ r = .unit := by
        have := g.spec
        simp only [Spec] at this
        split at this
        · exact .inl this.1
        · exact .inr this.1
      rcases hr with rfl | rfl <;> exact this
    | asSlice =>
      obtain ⟨rest, hd⟩ := hv.data
      refine ⟨.refs l, (.vec, s), l, ?_, ⟨hv, hb⟩, ⟨rfl, rfl⟩, by simp [bouts, realIns, BOp.ins]⟩
      have e1 : slice s.v 0 s.v.len = some l := by
        have := hv.len; dsimp only at this
        rw [this, Verif.Vec.slice_spec s.v l rest hd l.length 0 (by omega)]; simp
      simp [bstep, e1]
    | drop =>
      obtain ⟨s', h1, h2, h3, h4, _⟩ := dropVec_spec s l hv hb
      refine ⟨.unit, (.vec, s'), [], by simp [bstep, h1], ⟨by show VInv e s'.v []; rw [h2]; exact VInv.new e, h3⟩, ⟨rfl, rfl⟩, by simp [bouts, realIns, BOp.ins, h4]⟩
  | boxed b =>
    obtain ⟨hv, hb, hn⟩ := h
    cases op with
    | vec op =>
      exact ⟨.unit, (.boxed b, s), l, rfl, ⟨hv, hb, hn⟩, by simp [BSpec, isBoxed], by simp [bouts_unit, realIns, isBoxed]⟩
    | box => exact ⟨.unit, (.boxed b, s), l, rfl, ⟨hv, hb, hn⟩, ⟨rfl, rfl⟩, by simp [bouts, realIns, BOp.ins]⟩
    | unbox =>
      obtain ⟨s', h1, h2, h3, h4, h5⟩ := toVec_spec s b l hv hb
      exact ⟨.unit, (.vec, s'), l, by simp [bstep, h1], ⟨h2, h3⟩, ⟨rfl, rfl⟩, by simp [bouts, realIns, BOp.ins, h4]⟩
    | tryPush x =>
      have hsz : ∃ k, b.block = some k ∧ k.cells.length = k.pcap := by
        obtain ⟨k, h1, h2, _⟩ := hv.blk
        exact ⟨k, h1, by have := h2.size; simpa [Vec.cells, h1] using this⟩
      obtain ⟨k, hk1, hk2⟩ := hsz
      rcases tryPush_spec b l hv x with ⟨h1, k', h2, h3⟩ | ⟨b', h1, h2⟩
      · have : isFull (.boxed b) = true := by
          rw [hk1] at h2; cases h2
          simp [isFull, hk1, hk2, h3, hv.len]
        exact ⟨.back x, (.boxed b, s), l, by simp [bstep, h1], ⟨hv, hb, hn⟩, by simp [BSpec, isBoxed, this], by simp [bouts, realIns, BOp.ins]⟩
      · have : isFull (.boxed b) = false := by
          by_cases hf : b.len ≥ k.pcap
          · simp [Boxed.tryPush, Boxed.prefixCapacity, hk1, hf] at h1
          · simp only [isFull, hk1, hk2, beq_eq_false_iff_ne]; omega
        refine ⟨.unit, (.boxed b', s), l ++ [x], by simp [bstep, h1], ⟨h2, hb, hn⟩, by simp [BSpec, isBoxed, this], ?_⟩
        simp only [bouts, realIns, BOp.ins, List.append_nil, List.append_assoc]
        exact List.Perm.append_left _ List.perm_append_comm
    | asSlice =>
      exact ⟨.refs l, (.boxed b, s), l, by simp [bstep, hv.slice_spec], ⟨hv, hb, hn⟩, ⟨rfl, rfl⟩, by simp [bouts, realIns, BOp.ins]⟩
    | drop =>
      refine ⟨.unit, (.vec, { s with dropped := s.dropped ++ l, frees := s.frees + 1 }), [], by simp [bstep, bdrop_spec s b l hv], ⟨?_, ?_⟩, ⟨rfl, rfl⟩, by simp [bouts, realIns, BOp.ins]⟩
      · show VInv e s.v []; rw [hn]; exact VInv.new e
      · unfold Bal; show s.allocs = s.frees + 1 + live s.v; rw [hn, hb]; rfl

/-- The results of a history are those of a sequence; `l'` is what remains. -/
def BSpecRun (e : Env) (p : Var α × St α) : List (BOp α) → List α → List (Res α) → List α → Prop
  | [], l, rs, l' => rs = [] ∧ l' = l
  | op :: ops, l, rs, l' => ∃ r rs' p' m, rs = r :: rs' ∧ bstep e p op = some (r, p') ∧
    BSpec op (isBoxed p.1) (isFull p.1) (decide (p'.2.refused ≠ p.2.refused)) l r m ∧ BSpecRun e p' ops m rs' l'

/-- Total of the elements handed over and handed back. -/
def allIns (e : Env) (p : Var α × St α) : List (BOp α) → List α
  | [] => []
  | op :: ops => realIns p op ++ (match bstep e p op with | none => [] | some (_, p') => allIns e p' ops)
def allOuts : List (BOp α) → List (Res α) → List α
  | op :: ops, r :: rs => bouts op r ++ allOuts ops rs
  | _, _ => []

theorem brun_good {e : Env} (he : Sane e) (ops : List (BOp α)) (ha : ∀ op ∈ ops, BArgs e op) (p : Var α × St α) (l : List α)
    (h : PInv e p l) (hne : BoxesNonEmpty e p ops) : ∃ rs p' l', brun e p ops = some (rs, p') ∧ PInv e p' l' ∧
      BSpecRun e p ops l rs l' ∧ (p'.2.dropped ++ allOuts ops rs ++ l').Perm (p.2.dropped ++ allIns e p ops ++ l) := by
  induction ops generalizing p l with
  | nil => exact ⟨[], p, l, rfl, h, ⟨rfl, rfl⟩, by simp [allOuts, allIns]⟩
  | cons op ops ih =>
    obtain ⟨r, p1, l1, h1, g⟩ := bstep_good he p l h op (ha op (by simp)) hne.1
    obtain ⟨rs, p2, l2, h2, i2, c2, q2⟩ := ih (fun o ho => ha o (by simp [ho])) p1 l1 g.inv (hne.2 r p1 h1)
    refine ⟨r :: rs, p2, l2, by simp [brun, h1, h2], i2, ⟨r, rs, p1, l1, rfl, h1, g.spec, c2⟩, ?_⟩
    simp only [allOuts, allIns, h1]
    have e1 : (p2.2.dropped ++ (bouts op r ++ allOuts ops rs) ++ l2).Perm (bouts op r ++ (p2.2.dropped ++ allOuts ops rs ++ l2)) := by
      simp only [← List.append_assoc]
      exact (List.perm_append_comm.append_right _).append_right _
    refine e1.trans ((q2.append_left _).trans ?_)
    have e2 : (bouts op r ++ (p1.2.dropped ++ allIns e p1 ops ++ l1)).Perm (allIns e p1 ops ++ (p1.2.dropped ++ bouts op r ++ l1)) := by
      refine List.Perm.trans (l₂ := bouts op r ++ (allIns e p1 ops ++ p1.2.dropped ++ l1)) ?_ ?_
      · exact ((List.perm_append_comm).append_right _).append_left _
      · simp only [← List.append_assoc]
        refine List.Perm.append_right _ ?_
        refine ((List.perm_append_comm (l₁ := bouts op r)).append_right _).trans ?_
        simp only [List.append_assoc]
        exact List.perm_append_comm.append_left _
    refine e2.trans ((g.ledger.append_left _).trans ?_)
    simp only [← List.append_assoc]
    refine List.Perm.append_right _ ?_
    simp only [List.append_assoc]
    refine List.perm_append_comm.trans ?_
    simp only [List.append_assoc]
    exact List.Perm.refl _

/-- Any history of vector operations, conversions to a boxed slice and back, pushes and drops, in which slices are only made of
non-empty vectors, is free of undefined behaviour and behaves as on a sequence: conversions change nothing, and `try_push` on a
slice appends unless the block is full.  Elements are neither lost nor duplicated, and once the variable is dropped all
blocks are released.  What is missing from C19: empty slices, see the `_refuted` theorems. -/
theorem C19_history_partial (e : Env) (he : Sane e) (ops : List (BOp α)) (ha : ∀ op ∈ ops, BArgs e op)
    (hne : BoxesNonEmpty e (.vec, St.new) ops) : ∃ rs p l, brun e (.vec, (St.new : St α)) ops = some (rs, p) ∧
      BSpecRun e (.vec, St.new) ops [] rs l ∧
      (allIns e (.vec, St.new) ops).Perm (allOuts ops rs ++ p.2.dropped ++ l) ∧
      ∃ s', bstep e p .drop = some (.unit, .vec, s') ∧ s'.allocs = s'.frees ∧ s'.dropped = p.2.dropped ++ l := by
  obtain ⟨rs, p, l, h1, h2, h3, h4⟩ := brun_good he ops ha (.vec, St.new) [] ⟨VInv.new e, rfl⟩ hne
  refine ⟨rs, p, l, h1, h3, ?_, ?_⟩
  · simp only [St.new, List.nil_append, List.append_nil] at h4
    exact h4.symm.trans (List.perm_append_comm.append_right _)
  · obtain ⟨var, s⟩ := p
    cases var with
    | vec =>
      obtain ⟨hv, hb⟩ := h2
      obtain ⟨s', q1, q2, q3, q4, _⟩ := dropVec_spec s l hv hb
      refine ⟨s', by simp [bstep, q1], ?_, q4⟩
      unfold Bal at q3; rw [q2] at q3; exact q3
    | boxed b =>
      obtain ⟨hv, hb, hn⟩ := h2
      exact ⟨_, by simp [bstep, bdrop_spec s b l hv]; rfl, hb, rfl⟩

/-- A vector of 2 boxed with one free slot. -/
example : brun u64Env (.vec, St.new) [BOp.vec (.reserve 3), .tryPush 1, .tryPush 2, .box, .tryPush 3, .tryPush 4, .unbox, .vec .pop, .drop] =
    some ([.unit, .unit, .unit, .unit, .unit, .back 4, .unit, .moved (some 3), .unit], .vec, ⟨.new, [1, 2], 1, 1, 1, 0, 0⟩) := by
  decide +kernel
example : BoxesNonEmpty u64Env (.vec, St.new) [BOp.vec (.push 1), .box] := by
  refine ⟨fun h => (nomatch h), fun r p' h => ⟨fun _ _ => ?_, fun r p'' h' => trivial⟩⟩
  have : p' = (.vec, ⟨⟨some ⟨[some 1, none, none, none, none, none, none, none], 8⟩, 1, 8⟩, [], 1, 1, 0, 0, 0⟩) := by
    have e1 : bstep u64Env ((.vec, St.new) : Var Nat × St Nat) (.vec (.push 1)) =
      some (.unit, .vec, ⟨⟨some ⟨[some 1, none, none, none, none, none, none, none], 8⟩, 1, 8⟩, [], 1, 1, 0, 0, 0⟩) := by decide +kernel
    rw [e1] at h; cases h; rfl
  rw [this]; decide

/-- `BoxedSlice::from(Vec::new()).try_push(x)` reads the prefix of a dangling pointer. -/
theorem C19_empty_push_refuted (e : Env) (x : α) : brun e (.vec, (St.new : St α)) [.box, .tryPush x] = none := rfl

/-- The block of an empty slice is never released: neither by dropping the slice nor after converting it back. -/
theorem C19_empty_leak_refuted :
    (∃ p, brun u64Env (.vec, (St.new : St Nat)) [.vec (.reserve 3), .box, .drop] = some ([.unit, .unit, .unit], p) ∧ p.2.allocs = 1 ∧ p.2.frees = 0) ∧
    (∃ p, brun u64Env (.vec, (St.new : St Nat)) [.vec (.reserve 3), .box, .unbox, .drop] = some ([.unit, .unit, .unit, .unit], p) ∧
      p.2.allocs = 1 ∧ p.2.frees = 0) :=
  ⟨⟨(.vec, ⟨.new, [], 1, 1, 0, 0, 0⟩), by decide +kernel⟩, ⟨(.vec, ⟨.new, [], 1, 1, 0, 0, 0⟩), by decide +kernel⟩⟩

end Verif.Props.Boxed
