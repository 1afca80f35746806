import Verif.Vec.Zst

/-! C71: vectors of zero-sized elements. -/
namespace Verif.Props.Zst
open Verif.Vec.Zst

/-- **C71, refuted part.** No element of a zero-sized type can be pushed: `push`, `try_push`, `extend`, `collect` do not compile, as `FIRST_CAPACITY` divides by the
size.  They compile for all other types. -/
theorem C71_push_refuted (b : Build) (z : Z) (n : Nat) : push 0 b z = .rejected ∧ extend 0 b z n = .rejected ∧
    ∀ size, size ≠ 0 → (firstCapacity size).isSome = true := by
  refine ⟨rfl, rfl, ?_⟩
  intro size h
  unfold firstCapacity
  rw [if_neg h]
  split
  · rfl
  · split <;> rfl

/-- The operations that compile, and do not go through `push`. -/
inductive Op where
  | copyExtend (n : Nat)
  | clone
  | pop
  | remove (i : Nat)
  | swapRemove (i : Nat)
  | truncate (n : Nat)
  | drain (fro to : Nat)
  deriving DecidableEq, Repr

/-- What they do; `clone` continues with the copy. -/
def run (align : Nat) (b : Build) (z : Z) : Op → Out (Option Bool × Z)
  | .copyExtend n => (copyExtend b z n).bind fun z => .ok (none, z)
  | .clone => (clone align b z).bind fun z => .ok (none, z)
  | .pop => (pop align b z).bind fun p => .ok (some p.1, p.2)
  | .remove i => (remove b z i).bind fun p => .ok (some p.1, p.2)
  | .swapRemove i => (swapRemove align b z i).bind fun p => .ok (some p.1, p.2)
  | .truncate n => (truncate b z n).bind fun z => .ok (none, z)
  | .drain f t => (drain b z f t).bind fun z => .ok (none, z)

/-- What they do to a sequence of `n` elements that cannot be told apart: whether an element is returned, and how many there are then; `none` is a panic. -/
def spec (n : Nat) : Op → Option (Option Bool × Nat)
  | .copyExtend k => some (none, n + k)
  | .clone => some (none, n)
  | .pop => some (some (decide (0 < n)), n - 1)
  | .remove i => some (some (decide (i < n)), if i < n then n - 1 else n)
  | .swapRemove i => some (some (decide (i < n)), if i < n then n - 1 else n)
  | .truncate k => some (none, min n k)
  | .drain f t => if f ≤ t ∧ t ≤ n then some (none, f + (n - t)) else none

/-- Optimised builds, on the machine. -/
def release (W : Nat) : Build := ⟨W, false, false⟩

variable {W : Nat}

/-- The vector with `n` elements. -/
def With (W align n : Nat) (z : Z) : Prop := z.start = align ∧ z.fin = align + n ∧ z.cap = W - 1



theorem diff_eq {x y : Nat} (h : y ≤ x) (hx : x < W) : ptrDiff (release W) x y = .ok (x - y) := by
  have e : (x + W - y) % W = x - y := by
    have : x + W - y = (x - y) + W := by omega
    rw [this, Nat.add_mod_right, Nat.mod_eq_of_lt (by omega)]
  simp [ptrDiff, release, e]

theorem len_eq {align n : Nat} {z : Z} (h : With W align n z) (hn : align + n < W) : len (release W) z = .ok n := by
  unfold len
  rw [h.1, h.2.1, diff_eq (by omega) hn]
  congr 1
  omega

theorem setLen_eq {align n : Nat} {z : Z} (h : With W align n z) (k : Nat) (hk : align + k < W) :
    ∃ z', setLen (release W) z k = .ok z' ∧ With W align k z' := by
  refine ⟨{ z with fin := (z.start + k) % W }, by simp [setLen, ptrAdd, release, Out.bind], h.1, ?_, h.2.2⟩
  show (z.start + k) % W = align + k
  rw [h.1, Nat.mod_eq_of_lt hk]

theorem reserve_eq {align n : Nat} {z : Z} (h0 : 0 < align) (h : With W align n z) (k : Nat) (hk : align + n + k < W) :
    tryReserve (release W) z k = .ok (W - 1 - align) := by
  have e1 : remaining (release W) z = .ok (W - 1 - (align + n)) := by
    unfold remaining
    rw [h.2.2, h.2.1, diff_eq (by omega) (by omega)]
  have e2 : capacity (release W) z = .ok (W - 1 - align) := by
    unfold capacity
    rw [h.2.2, h.1, diff_eq (by omega) (by omega)]
  have e3 : (release W).addrs = W := rfl
  unfold tryReserve
  rw [e1, e2]
  simp only [Out.bind]
  rw [if_neg (by omega), if_neg (by omega)]

theorem new_with {align : Nat} : With W align 0 (new align (release W)) := ⟨rfl, rfl, rfl⟩

theorem step_spec {n : Nat} {z : Z} (h : With W 1 n z) (hn : 1 + n < W) (op : Op) :
    match spec n op with
    | some (r, k) => 1 + k < W → ∃ z', run 1 (release W) z op = .ok (r, z') ∧ With W 1 k z'
    | none => run 1 (release W) z op = .panic := by
  have pops : ∃ z', pop 1 (release W) z = .ok (decide (0 < n), z') ∧ With W 1 (n - 1) z' := by
    unfold pop
    rw [len_eq h hn]
    simp only [Out.bind]
    by_cases h0 : n = 0
    · subst h0; exact ⟨z, by simp, h⟩
    · obtain ⟨z', e, hz⟩ := setLen_eq h (n - 1) (by omega)
      refine ⟨z', ?_, hz⟩
      rw [if_neg h0, if_neg (by simp [Nat.mod_one]), e]
      simp [show 0 < n by omega]
  cases op with
  | copyExtend k =>
    simp only [spec]
    intro hk
    simp only [run, copyExtend]
    by_cases h0 : k = 0
    · subst h0; exact ⟨z, by simp [Out.bind], h⟩
    · obtain ⟨z', e', hz⟩ := setLen_eq h (n + k) (by omega)
      refine ⟨z', ?_, hz⟩
      rw [if_neg h0, reserve_eq (by omega) h k (by omega), len_eq h hn]
      simp [Out.bind, e']
  | clone =>
    simp only [spec]
    intro hk
    simp only [run, clone, withCapacity]
    have e := reserve_eq (W := W) (by omega) (new_with (align := 1)) n (by omega)
    obtain ⟨z', e', hz⟩ := setLen_eq (W := W) (new_with (align := 1)) n (by omega)
    refine ⟨z', ?_, hz⟩
    rw [len_eq h hn]
    simp [Out.bind, e, e']
  | pop =>
    simp only [spec]
    intro _
    obtain ⟨z', e, hz⟩ := pops
    exact ⟨z', by simp [run, e, Out.bind], hz⟩
  | remove i =>
    simp only [spec]
    intro _
    simp only [run, remove]
    rw [len_eq h hn]
    by_cases hi : i < n
    · obtain ⟨z', e, hz⟩ := setLen_eq h (n - 1) (by omega)
      exact ⟨z', by simp [Out.bind, hi, e], by simpa [hi] using hz⟩
    · exact ⟨z, by simp [Out.bind, hi], by simpa [hi] using h⟩
  | swapRemove i =>
    simp only [spec]
    intro _
    simp only [run, swapRemove]
    rw [len_eq h hn]
    by_cases hi : i < n
    · obtain ⟨z', e, hz⟩ := pops
      exact ⟨z', by simp [Out.bind, hi, e]; omega, by simpa [hi] using hz⟩
    · exact ⟨z, by simp [Out.bind, hi], by simpa [hi] using h⟩
  | truncate k =>
    simp only [spec]
    intro _
    simp only [run, truncate]
    rw [len_eq h hn]
    by_cases hk : n ≤ k
    · exact ⟨z, by simp [Out.bind, hk], by rw [Nat.min_eq_left hk]; exact h⟩
    · obtain ⟨z', e, hz⟩ := setLen_eq h k (by omega)
      exact ⟨z', by simp [Out.bind, hk, e], by rw [Nat.min_eq_right (by omega)]; exact hz⟩
  | drain f t =>
    by_cases hc : f ≤ t ∧ t ≤ n
    · simp only [spec, hc, and_self, if_true]
      intro _
      obtain ⟨z1, e1, h1⟩ := setLen_eq h f (by omega)
      obtain ⟨z2, e2, h2⟩ := setLen_eq h1 (n - t + f) (by omega)
      refine ⟨z2, ?_, by rw [Nat.add_comm f]; exact h2⟩
      simp [run, drain, len_eq h hn, Out.bind, hc, e1, e2]
    · simp only [spec, hc, if_false]
      simp [run, drain, len_eq h hn, Out.bind, hc]

/-- A history; after a panic the vector is used as it was. -/
def runs (align : Nat) (b : Build) (z : Z) : List Op → Option (List (Option (Option Bool)) × Z)
  | [] => some ([], z)
  | op :: ops =>
    match run align b z op with
    | .ok (r, z') => (runs align b z' ops).map fun p => (some r :: p.1, p.2)
    | .panic => (runs align b z ops).map fun p => (none :: p.1, p.2)
    | _ => none

/-- What a sequence answers. -/
def specs (n : Nat) : List Op → List (Option (Option Bool)) × Nat
  | [] => ([], n)
  | op :: ops =>
    match spec n op with
    | some (r, k) => (some r :: (specs k ops).1, (specs k ops).2)
    | none => (none :: (specs n ops).1, (specs n ops).2)

/-- The sequence never has as many elements as there are addresses. -/
def Small (W n : Nat) : List Op → Prop
  | [] => True
  | op :: ops => match spec n op with
    | some (_, k) => 1 + k < W ∧ Small W k ops
    | none => Small W n ops

theorem runs_spec {n : Nat} {z : Z} (h : With W 1 n z) (hn : 1 + n < W) (ops : List Op) (hs : Small W n ops) :
    ∃ z', runs 1 (release W) z ops = some ((specs n ops).1, z') ∧ With W 1 (specs n ops).2 z' := by
  induction ops generalizing n z with
  | nil => exact ⟨z, rfl, h⟩
  | cons op ops ih =>
    have st := step_spec h hn op
    simp only [Small] at hs
    simp only [runs, specs]
    cases e : spec n op with
    | none =>
      rw [e] at st hs
      simp only at st hs ⊢
      obtain ⟨z', e', hz⟩ := ih h hn hs
      exact ⟨z', by rw [st]; simp [e'], hz⟩
    | some p =>
      obtain ⟨r, k⟩ := p
      rw [e] at st hs
      simp only at st hs ⊢
      obtain ⟨z1, e1, h1⟩ := st hs.1
      obtain ⟨z', e', hz⟩ := ih h1 hs.1 hs.2
      exact ⟨z', by rw [e1]; simp [e'], hz⟩

/-- **C71 (partial).** In optimised builds, on machines where pointers are addresses, vectors of zero-sized elements with alignment 1 that are filled by
`copy_extend` (thus `From<&[T]>` and `clone`) answer as sequences, for every history in which the length stays below `usize::MAX`. -/
theorem C71_release_partial (hW : 1 < W) (ops : List Op) (hs : Small W 0 ops) :
    ∃ z, runs 1 (release W) (new 1 (release W)) ops = some ((specs 0 ops).1, z) ∧ len (release W) z = .ok (specs 0 ops).2 := by
  obtain ⟨z, e, hz⟩ := runs_spec (new_with (align := 1)) hW ops hs
  have small : ∀ ops n, 1 + n < W → Small W n ops → 1 + (specs n ops).2 < W := by
    intro ops
    induction ops with
    | nil => intro n hn _; exact hn
    | cons op ops ih =>
      intro n hn hs
      simp only [Small] at hs
      simp only [specs]
      cases e : spec n op with
      | none => rw [e] at hs; exact ih n hn hs
      | some p => obtain ⟨r, k⟩ := p; rw [e] at hs; exact ih k hs.1 hs.2
  exact ⟨z, e, len_eq hz (small ops 0 hW hs)⟩

/-- **C71, refuted part.** In builds with debug assertions, everything that asks for the capacity panics: an empty vector of any zero-sized type can neither be
filled nor cloned, not even `with_capacity(0)` works. -/
theorem C71_debug_refuted (align : Nat) (h0 : 0 < align) (h1 : align < W / 2) (n : Nat) :
    withCapacity align ⟨W, true, false⟩ n = .panic ∧ ofSlice align ⟨W, true, false⟩ n = .panic ∧ clone align ⟨W, true, false⟩ (new align ⟨W, true, false⟩) = .panic ∧
    capacity ⟨W, true, false⟩ (new align ⟨W, true, false⟩) = .panic ∧ (n ≠ 0 → copyExtend ⟨W, true, false⟩ (new align ⟨W, true, false⟩) n = .panic) := by
  have d : ptrDiff ⟨W, true, false⟩ (W - 1) align = .panic := by
    have e : (W - 1 + W - align) % W = W - 1 - align := by
      have : W - 1 + W - align = (W - 1 - align) + W := by omega
      rw [this, Nat.add_mod_right, Nat.mod_eq_of_lt (by omega)]
    have : W / 2 ≤ W - 1 - align := by omega
    simp [ptrDiff, e, this]
  have l : len ⟨W, true, false⟩ (new align ⟨W, true, false⟩) = .ok 0 := by
    have : ¬ W / 2 ≤ 0 := by omega
    simp [len, new, ptrDiff, this]
  have r : ∀ k, tryReserve ⟨W, true, false⟩ (new align ⟨W, true, false⟩) k = .panic := by
    intro k
    simp only [tryReserve, remaining, new, d, Out.bind]
  have w : ∀ k, withCapacity align ⟨W, true, false⟩ k = .panic := by intro k; simp [withCapacity, r, Out.bind]
  refine ⟨w n, by simp [ofSlice, w, Out.bind], by simp [clone, l, w, Out.bind], d, ?_⟩
  intro h
  simp [copyExtend, h, r, Out.bind]

/-- **C71, refuted part.** In the language, everything that asks for the capacity of an empty vector is undefined behaviour: the address `usize::MAX` is not one of the
object that `start` points to. -/
theorem C71_ub_refuted (align : Nat) (debug : Bool) (h1 : align < W / 2) (n : Nat) :
    withCapacity align ⟨W, debug, true⟩ n = .ub ∧ clone align ⟨W, debug, true⟩ (new align ⟨W, debug, true⟩) = .ub ∧ capacity ⟨W, debug, true⟩ (new align ⟨W, debug, true⟩) = .ub ∧
    (n ≠ 0 → copyExtend ⟨W, debug, true⟩ (new align ⟨W, debug, true⟩) n = .ub) := by
  have hne : W - 1 ≠ align := by omega
  have d : ptrDiff ⟨W, debug, true⟩ (W - 1) align = .ub := by simp [ptrDiff, hne]
  have l : len ⟨W, debug, true⟩ (new align ⟨W, debug, true⟩) = .ok 0 := by
    have : ¬ W / 2 ≤ 0 := by omega
    simp [len, new, ptrDiff, this]
  have r : ∀ k, tryReserve ⟨W, debug, true⟩ (new align ⟨W, debug, true⟩) k = .ub := by
    intro k
    simp only [tryReserve, remaining, new, d, Out.bind]
  have w : ∀ k, withCapacity align ⟨W, debug, true⟩ k = .ub := by intro k; simp [withCapacity, r, Out.bind]
  refine ⟨w n, by simp [clone, l, w, Out.bind], d, ?_⟩
  intro h
  simp [copyExtend, h, r, Out.bind]

/-- **C71, refuted part.** `pop` reads at `end`, which is not aligned if the elements are more aligned than bytes: a vector of one `[u64; 0]`, even on the machine. -/
theorem C71_align_refuted (align n : Nat) (h0 : 0 < align) (hna : n % align ≠ 0) (hw : align + n < W) :
    ∃ z, ofSlice align (release W) n = .ok z ∧ len (release W) z = .ok n ∧ pop align (release W) z = .ub := by
  have hn : n ≠ 0 := by rintro rfl; exact hna (Nat.zero_mod _)
  obtain ⟨z, e, hz⟩ := setLen_eq (W := W) (new_with (align := align)) n hw
  have r := reserve_eq (W := W) h0 (new_with (align := align)) n (by omega)
  refine ⟨z, ?_, len_eq hz hw, ?_⟩
  · simp [ofSlice, withCapacity, copyExtend, r, hn, Out.bind, len_eq (W := W) (new_with (align := align)) (by omega), e]
  · unfold pop
    rw [len_eq hz hw]
    simp only [Out.bind]
    rw [if_neg hn, if_pos]
    rw [hz.2.1, Nat.add_mod_left]
    exact hna

/-- **C71.** Empty vectors of zero-sized elements are sound, in every build and in the language: what does not ask for the capacity answers as an empty sequence. -/
theorem C71_empty (align : Nat) (b : Build) (ha : align < b.addrs / 2) (op : Op) (h : op ≠ .clone) (hc : ∀ n, op = .copyExtend n → n = 0) :
    run align b (new align b) op = match spec 0 op with
      | some (r, _) => .ok (r, new align b)
      | none => .panic := by
  have l : len b (new align b) = .ok 0 := by
    have : ¬ b.addrs / 2 ≤ 0 := by omega
    simp [len, new, ptrDiff, this]
  have s : setLen b (new align b) 0 = .ok (new align b) := by
    simp [setLen, ptrAdd, new, Out.bind, Nat.mod_eq_of_lt (show align < b.addrs by omega)]
  cases op with
  | copyExtend n => cases hc n rfl; simp [run, spec, copyExtend, Out.bind]
  | clone => exact absurd rfl h
  | pop => simp [run, spec, pop, l, Out.bind]
  | remove i => simp [run, spec, remove, l, Out.bind]
  | swapRemove i => simp [run, spec, swapRemove, l, Out.bind]
  | truncate n => simp [run, spec, truncate, l, Out.bind]
  | drain f t =>
    simp only [run, spec, drain, l, Out.bind]
    by_cases hc : f ≤ t ∧ t ≤ 0
    · have : f = 0 := by omega
      subst this
      have : t = 0 := by omega
      subst this
      simp [s]
    · have : ¬ (f ≤ t ∧ t ≤ 0) := hc
      rw [if_neg this, if_neg this]

/-- **C71.** The first capacity of every other type: a kilobyte's worth of elements, but at least one and at most eight. -/
theorem C71_first_capacity (size c : Nat) : firstCapacity size = some c ↔ size ≠ 0 ∧ c = max 1 (min 8 (1024 / size)) := by
  unfold firstCapacity
  by_cases h : size = 0
  · simp [h]
  · rw [if_neg h]
    generalize 1024 / size = v
    match v with
    | 0 => simp only [Option.some.injEq]; constructor <;> intro h' <;> omega
    | v + 1 =>
      simp only
      split <;> simp only [Option.some.injEq] <;> constructor <;> intro h' <;> omega

/-- **C71.** `try_reserve` answers with the capacity if there are enough addresses left. -/
theorem C71_reserve (align n k : Nat) (h0 : 0 < align) (hk : align + n + k < W) :
    ∃ z, setLen (release W) (new align (release W)) n = .ok z ∧ tryReserve (release W) z k = .ok (W - 1 - align) := by
  obtain ⟨z, e, hz⟩ := setLen_eq (W := W) (new_with (align := align)) n (by omega)
  exact ⟨z, e, reserve_eq h0 hz k hk⟩

/-- **C71, refuted part.** If there are not enough addresses left (slices of zero-sized elements can be that long), `try_reserve` and `copy_extend` do not fail but reallocate
the dangling pointer: undefined behaviour, even on the machine. -/
theorem C71_full_refuted (align n k : Nat) (hn : align + n < W - 1) (hk : W ≤ align + n + k) :
    ∃ z, setLen (release W) (new align (release W)) n = .ok z ∧ len (release W) z = .ok n ∧ tryReserve (release W) z k = .ub ∧ copyExtend (release W) z k = .ub := by
  obtain ⟨z, e, h⟩ := setLen_eq (W := W) (new_with (align := align)) n (by omega)
  have e1 : remaining (release W) z = .ok (W - 1 - (align + n)) := by
    unfold remaining
    rw [h.2.2, h.2.1, diff_eq (by omega) (by omega)]
  have e2 : capacity (release W) z = .ok (W - 1 - align) := by
    unfold capacity
    rw [h.2.2, h.1, diff_eq (by omega) (by omega)]
  have e3 : tryReserve (release W) z k = .ub := by
    unfold tryReserve
    rw [e1, e2, len_eq h (by omega)]
    simp only [Out.bind]
    rw [if_pos (by omega), if_neg (by simp [release]), if_pos (by omega)]
  refine ⟨z, e, len_eq h (by omega), e3, ?_⟩
  unfold copyExtend
  rw [if_neg (by omega), e3]
  rfl

example : firstCapacity 1 = some 8 ∧ firstCapacity 200 = some 5 ∧ firstCapacity 2000 = some 1 := by decide
example : (copyExtend (release (2 ^ 64)) (new 1 (release (2 ^ 64))) 3).bind (copyExtend (release (2 ^ 64)) · (2 ^ 64 - 1)) = .ub := by decide +kernel

/-- A history with copies, removals and a range out of bounds. -/
def exOps : List Op := [.copyExtend 5, .pop, .drain 1 3, .remove 7, .clone, .drain 2 9, .truncate 1, .swapRemove 0, .pop]

example : Small (2 ^ 64) 0 exOps := by simp [Small, exOps, spec]

example : (runs 1 (release (2 ^ 64)) (new 1 (release (2 ^ 64))) exOps).map (·.1) =
    some [some none, some (some true), some none, some (some false), some none, none, some none, some (some true), some (some false)] := by
  decide +kernel

example : (ofSlice 8 (release (2 ^ 64)) 1).bind (pop 8 (release (2 ^ 64))) = .ub := by decide +kernel

end Verif.Props.Zst
