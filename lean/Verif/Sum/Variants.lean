import Verif.Sum.Encode

/-! `#[repr(stabby)]` enums with any number of variants (stabby-macros/src/enums.rs:360-760). -/
namespace Verif.Sum
open Verif.Layout

/-- The shape `Variants::recursion` gives to a list of variants. -/
inductive Tree where
  | leaf (t : Ty)
  | node (l r : Tree)

/-- `Variants::recursion` (enums.rs:382-395): halve at `len / 2` until one variant remains.  The empty
list panics in the source (`variants[0]`, and enums.rs:436-438), here it is a unit leaf. -/
def build (vs : List Ty) : Tree :=
  if h : 1 < vs.length then
    .node (build (vs.take (vs.length / 2))) (build (vs.drop (vs.length / 2)))
  else .leaf (vs.headD Ty.unit)
termination_by vs.length
decreasing_by
  · rw [List.length_take]; omega
  · rw [List.length_drop]; omega

namespace Tree
/-- The nested `Result` type (enums.rs:459-470). -/
def ty : Tree → Ty
  | leaf t => t
  | node l r => .result l.ty r.ty
/-- The number of variants. -/
def count : Tree → Nat
  | leaf _ => 1
  | node l r => l.count + r.count
/-- The type of each variant. -/
def leaves : Tree → List Ty
  | leaf t => [t]
  | node l r => l.leaves ++ r.leaves

/-- The constructor of variant `i` (enums.rs:472-497): the constructors of the left half are wrapped in
`Result::Ok`, those of the right half in `Result::Err`. -/
def ctor : Tree → Nat → Mem → Mem
  | leaf _, _, src => src
  | node l r, i, src =>
    if i < l.count then mkOk l.ty.lay r.ty.lay (l.ctor i src)
    else mkErr l.ty.lay r.ty.lay (r.ctor (i - l.count) src)

/-- `match_owned`/`match_ref` and their `_ctx` forms (enums.rs:498-536; result.rs:286-330, 346-366): which
closure is called, and the memory it is given.  `k` is the index of the first closure of this subtree. -/
def dispatch : Tree → Nat → Mem → Nat × Mem
  | leaf _, k, m => (k, m)
  | node l r, k, m =>
    if isOk l.ty.lay r.ty.lay m then l.dispatch k (okPtr l.ty.lay r.ty.lay m)
    else r.dispatch (k + l.count) (errPtr l.ty.lay r.ty.lay m)

/-- `match_mut` (enums.rs:519-527; result.rs:331-345): every level hands out a guard; the closure of the
variant overwrites its payload with `src`; the guards are dropped from the innermost to the outermost. -/
def matchMut : Tree → Mem → Mem → Mem
  | leaf t, m, src => m.write 0 t.lay.size src
  | node l r, m, src =>
    if isOk l.ty.lay r.ty.lay m then
      okGuardWrite l.ty.lay r.ty.lay m (l.matchMut (okPtr l.ty.lay r.ty.lay m) src)
    else errGuardWrite l.ty.lay r.ty.lay m (r.matchMut (errPtr l.ty.lay r.ty.lay m) src)
end Tree

theorem build_leaves (vs : List Ty) (h : vs ≠ []) : (build vs).leaves = vs := by
  fun_induction build vs with
  | case1 vs hlt ih1 ih2 =>
    rw [Tree.leaves, ih1, ih2, List.take_append_drop]
    · intro e
      have := congrArg List.length e
      rw [List.length_drop, List.length_nil] at this; omega
    · intro e
      have := congrArg List.length e
      rw [List.length_take, List.length_nil] at this; omega
  | case2 vs hlt =>
    cases vs with
    | nil => exact absurd rfl h
    | cons a l =>
      cases l with
      | nil => rfl
      | cons b l => simp at hlt

theorem Tree.count_leaves (t : Tree) : t.count = t.leaves.length := by
  induction t with
  | leaf => rfl
  | node l r ihl ihr => simp [count, leaves, ihl, ihr]

/-- Value of a tree: the variant and its payload. -/
def Tree.val : Tree → Nat → Val → Val
  | .leaf _, _, v => v
  | .node l r, i, v => if i < l.count then .ok (l.val i v) else .err (r.val (i - l.count) v)

theorem ctor_rep {t : Tree} (h : t.ty.WF) {i : Nat} {ty : Ty} (hi : t.leaves[i]? = some ty) {v : Val} {src : Mem}
    (hr : Rep ty v src) : Rep t.ty (t.val i v) (t.ctor i src) := by
  induction t generalizing i with
  | leaf t =>
    simp only [Tree.leaves] at hi
    cases i with
    | zero => simp at hi; subst hi; exact hr
    | succ i => simp at hi
  | node l r ihl ihr =>
    simp only [Tree.leaves] at hi
    simp only [Tree.ctor, Tree.val]
    by_cases hlt : i < l.count
    · rw [if_pos hlt, if_pos hlt]
      rw [l.count_leaves] at hlt
      rw [List.getElem?_append_left hlt] at hi
      exact mkOk_rep h (ihl h.1 hi)
    · rw [if_neg hlt, if_neg hlt]
      rw [l.count_leaves] at hlt ⊢
      rw [List.getElem?_append_right (by omega)] at hi
      exact mkErr_rep h (ihr h.2.1 hi)

theorem dispatch_rep {t : Tree} {i : Nat} {ty : Ty} (hi : t.leaves[i]? = some ty) {v : Val} {m : Mem} (k : Nat)
    (hr : Rep t.ty (t.val i v) m) : (t.dispatch k m).1 = k + i ∧ Rep ty v (t.dispatch k m).2 := by
  induction t generalizing i m k with
  | leaf t =>
    simp only [Tree.leaves] at hi
    cases i with
    | zero => simp at hi; subst hi; exact ⟨rfl, hr⟩
    | succ i => simp at hi
  | node l r ihl ihr =>
    simp only [Tree.leaves] at hi
    simp only [Tree.val] at hr
    simp only [Tree.dispatch]
    by_cases hlt : i < l.count
    · rw [if_pos hlt] at hr
      rw [l.count_leaves] at hlt
      rw [List.getElem?_append_left hlt] at hi
      rw [if_pos hr.1]
      exact ihl hi k hr.2
    · rw [if_neg hlt] at hr
      have h1 := hr.1
      rw [h1]
      have hc := l.count_leaves
      rw [List.getElem?_append_right (by omega), ← hc] at hi
      obtain ⟨h2, h3⟩ := ihr hi (k + l.count) hr.2
      exact ⟨by simp only [Bool.false_eq_true, if_false]; omega, h3⟩

theorem matchMut_rep {t : Tree} (h : t.ty.WF) {i : Nat} {ty : Ty} (hi : t.leaves[i]? = some ty) {v w : Val} {m src : Mem}
    (hr : Rep t.ty (t.val i v) m) (hw : Rep ty w src) : Rep t.ty (t.val i w) (t.matchMut m src) := by
  induction t generalizing i m with
  | leaf t =>
    simp only [Tree.leaves] at hi
    cases i with
    | zero =>
      simp at hi; subst hi
      exact rep_congr h hw (fun i hi b hb _ => by
        have hi' : i < t.lay.size := hi
        simp [Tree.matchMut, Mem.write, hi'])
    | succ i => simp at hi
  | node l r ihl ihr =>
    simp only [Tree.leaves] at hi
    simp only [Tree.val] at hr ⊢
    simp only [Tree.matchMut]
    by_cases hlt : i < l.count
    · rw [if_pos hlt] at hr ⊢
      rw [l.count_leaves] at hlt
      rw [List.getElem?_append_left hlt] at hi
      rw [if_pos hr.1]
      have hsub := ihl h.1 hi hr.2
      obtain ⟨g1, g2⟩ := okGuard (ty_good h.1) (ty_good h.2.1) h.2.2 hr.1 (rep_not_forbidden h.1 hsub)
      exact ⟨g1, rep_congr h.1 hsub g2⟩
    · rw [if_neg hlt] at hr ⊢
      have h1 := hr.1
      rw [h1]
      have hc := l.count_leaves
      rw [List.getElem?_append_right (by omega), ← hc] at hi
      have hsub := ihr h.2.1 hi hr.2
      simp only [Bool.false_eq_true, if_false]
      obtain ⟨g1, g2⟩ := errGuard (ty_good h.1) (ty_good h.2.1) h.2.2 h1 (rep_not_forbidden h.2.1 hsub)
      exact ⟨g1, rep_congr h.2.1 hsub g2⟩

end Verif.Sum
