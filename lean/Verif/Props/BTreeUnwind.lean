import Verif.BTree.Unwind
import Verif.BTree.Steps
import Mathlib.Data.Nat.Basic
/-! C74: insertions into B-trees in which user code unwinds or the allocator fails. -/
namespace Verif.Props.BTreeUnwind
open Verif.BTree (Sorted ins ins_skip ins_stop ins_hit)
open Verif.BTree.Unwind
variable {α κ : Type}

mutual
/-- The elements of a tree, in order. -/
def tvals : Tree α → List α
  | .leaf => []
  | .node _ row => rvals row
def rvals : Row α → List α
  | .last g => tvals g
  | .cons s v rest => tvals s ++ v :: rvals rest
end

theorem tvals_share (t : Tree α) : tvals t.share = tvals t := by cases t <;> rfl
theorem tvals_shareIf (sh : Bool) (t : Tree α) : tvals (t.shareIf sh) = tvals t := by
  cases sh with
  | false => rfl
  | true => exact tvals_share t
theorem rvals_shareIf (sh : Bool) : ∀ row : Row α, rvals (row.shareIf sh) = rvals row
  | .last g => by simp only [Row.shareIf, rvals, tvals_shareIf]
  | .cons s v rest => by simp only [Row.shareIf, rvals, tvals_shareIf, rvals_shareIf sh rest]
theorem rvals_shareFirst : ∀ (n : Nat) (row : Row α), rvals (row.shareFirst n) = rvals row
  | 0, .last _ => rfl
  | 0, .cons _ _ _ => rfl
  | _ + 1, .last _ => rfl
  | n + 1, .cons s v rest => by simp only [Row.shareFirst, rvals, tvals_share, rvals_shareFirst n rest]

theorem splitAt_vals : ∀ (i : Nat) (row l : Row α) (p : α) (r : Row α), row.splitAt i = some (l, p, r) → rvals row = rvals l ++ p :: rvals r
  | 0, .cons s v rest, l, p, r, h => by cases h; rfl
  | 0, .last _, _, _, _, h => by cases h
  | _ + 1, .last _, _, _, _, h => by cases h
  | i + 1, .cons s v rest, l, p, r, h => by
    simp only [Row.splitAt, Option.map_eq_some_iff] at h
    obtain ⟨⟨l', p', r'⟩, h1, h2⟩ := h
    cases h2
    simp [rvals, splitAt_vals i rest _ _ _ h1]

theorem splitAt_length : ∀ (i : Nat) (row l : Row α) (p : α) (r : Row α), row.splitAt i = some (l, p, r) → l.length = i ∧ r.length + i + 1 = row.length
  | 0, .cons s v rest, l, p, r, h => by cases h; exact ⟨rfl, rfl⟩
  | 0, .last _, _, _, _, h => by cases h
  | _ + 1, .last _, _, _, _, h => by cases h
  | i + 1, .cons s v rest, l, p, r, h => by
    simp only [Row.splitAt, Option.map_eq_some_iff] at h
    obtain ⟨⟨l', p', r'⟩, h1, h2⟩ := h
    cases h2
    have := splitAt_length i rest _ _ _ h1
    simp only [Row.length]; omega

theorem splitAt_some : ∀ (i : Nat) (row : Row α), i < row.length → ∃ l p r, row.splitAt i = some (l, p, r)
  | _, .last _, h => by simp [Row.length] at h
  | 0, .cons s v rest, _ => ⟨_, _, _, rfl⟩
  | i + 1, .cons s v rest, h => by
    obtain ⟨l, p, r, e⟩ := splitAt_some i rest (by simp only [Row.length] at h; omega)
    exact ⟨.cons s v l, p, r, by simp [Row.splitAt, e]⟩

/-! ### What the tree holds -/

section
variable [LinearOrder κ] (key : α → κ) (v : α)

def Good (L : List α) : Out α → Prop
  | .done _ t old => (old, tvals t) = ins key v L
  | .split _ t p r => (none, tvals t ++ p :: tvals r) = ins key v L
  | .unwound _ k t => tvals t = L ∨ (k = .alloc ∧ (tvals t).Sublist (ins key v L).2 ∧ (ins key v L).1 = none)

def RGood (L : List α) : RowOut α → Prop
  | .done _ row old => (old, rvals row) = ins key v L
  | .grown _ row => (none, rvals row) = ins key v L
  | .unwound _ k row => rvals row = L ∨ (k = .alloc ∧ (rvals row).Sublist (ins key v L).2 ∧ (ins key v L).1 = none)

theorem good_up (limit : Nat) (L : List α) (o : RowOut α) (h : RGood key v L o) : Good key v L (o.up limit) := by
  cases o with
  | done e row old => exact h
  | unwound e k row => exact h
  | grown e row =>
    simp only [RowOut.up, finish]
    split
    · split
      · exact h
      · rename_i l p r hs
        have hv := splitAt_vals _ _ _ _ _ hs
        split
        · refine Or.inr ⟨rfl, ?_, ?_⟩
          · rw [← (h : _ = _)]
            show (rvals l).Sublist (rvals row)
            rw [hv]; exact List.sublist_append_left _ _
          · rw [← (h : _ = _)]
        · show (none, rvals l ++ p :: rvals r) = _
          rw [← hv]; exact h
    · exact h

theorem good_last (L : List α) (o : Out α) (h : Good key v L o) : RGood key v L o.atLast := by
  cases o <;> exact h

theorem good_entry {L : List α} {x : α} (hx : key v < key x) (rest : Row α) (o : Out α) (h : Good key v L o) :
    RGood key v (L ++ x :: rvals rest) (o.atEntry x rest) := by
  have hi := ins_stop key v L (rvals rest) x hx
  cases o with
  | done e t old =>
    show (old, tvals t ++ x :: rvals rest) = _
    rw [hi, ← (h : _ = _)]
  | split e t p r =>
    show (none, tvals t ++ p :: (tvals r ++ x :: rvals rest)) = _
    rw [hi, ← (h : _ = _)]
    simp
  | unwound e k t =>
    show tvals t ++ x :: rvals rest = _ ∨ _
    rw [hi]
    rcases (h : _ ∨ _) with h | ⟨h1, h2, h3⟩
    · exact Or.inl (by rw [h])
    · exact Or.inr ⟨h1, h2.append (List.Sublist.refl _), h3⟩

theorem good_cons {L : List α} {s : Tree α} {x : α} (hs : ∀ y ∈ tvals s, key y < key v) (hx : key x < key v) (o : RowOut α) (h : RGood key v L o) :
    RGood key v (tvals s ++ x :: L) (o.cons s x) := by
  have hi := ins_skip key v (tvals s ++ [x]) L (by
    intro y hy
    rcases List.mem_append.1 hy with h | h
    · exact hs y h
    · rw [List.mem_singleton.1 h]; exact hx)
  simp only [List.append_assoc, List.singleton_append] at hi
  cases o with
  | done e row old =>
    show (old, tvals s ++ x :: rvals row) = _
    rw [hi, ← (h : _ = _)]
  | grown e row =>
    show (none, tvals s ++ x :: rvals row) = _
    rw [hi, ← (h : _ = _)]
  | unwound e k row =>
    show tvals s ++ x :: rvals row = _ ∨ _
    rw [hi]
    rcases (h : _ ∨ _) with h | ⟨h1, h2, h3⟩
    · exact Or.inl (by rw [h])
    · exact Or.inr ⟨h1, (List.Sublist.refl _).append (h2.cons_cons x), h3⟩

mutual
theorem tree_good (limit : Nat) (sh : Bool) (e : Env α) : ∀ t : Tree α, Sorted key (tvals t) → Good key v (tvals t) (t.ins key limit sh e v)
  | .leaf, _ => by
    simp only [Tree.ins]
    rfl
  | .node shared row, hs => by
    simp only [Tree.ins]
    split
    · split
      · exact Or.inl (by simp [tvals, rvals_shareFirst])
      · split
        · exact Or.inl rfl
        · exact good_up key v limit _ _ (row_good limit true _ row hs)
    · exact good_up key v limit _ _ (row_good limit false _ row hs)
theorem row_good (limit : Nat) (sh : Bool) (e : Env α) : ∀ row : Row α, Sorted key (rvals row) → RGood key v (rvals row) (row.ins key limit sh e v)
  | .last g, hs => by
    simp only [Row.ins]
    exact good_last key v _ _ (tree_good limit sh e g hs)
  | .cons s x rest, hs => by
    simp only [Row.ins]
    have hsort : Sorted key (tvals s ++ x :: rvals rest) := hs
    unfold Sorted at hsort
    rw [List.pairwise_append, List.pairwise_cons] at hsort
    obtain ⟨s1, ⟨s2, s3⟩, s4⟩ := hsort
    split
    · exact Or.inl (by simp [rvals, tvals_shareIf, rvals_shareIf])
    · rename_i e' _
      by_cases h1 : key x = key v
      · rw [if_pos h1]
        show (some x, tvals (s.shareIf sh) ++ v :: rvals (rest.shareIf sh)) = ins key v (tvals s ++ x :: rvals rest)
        rw [tvals_shareIf, rvals_shareIf, ins_skip key v _ _ (fun y hy => h1 ▸ s4 y hy x (by simp)), ins_hit key v _ _ h1]
      · rw [if_neg h1]
        by_cases h2 : key v < key x
        · rw [if_pos h2]
          have := good_entry key v h2 (rest.shareIf sh) _ (tree_good limit sh e' s s1)
          rw [rvals_shareIf] at this
          exact this
        · rw [if_neg h2]
          have hlt : key x < key v := lt_of_le_of_ne (le_of_not_gt h2) h1
          have := good_cons key v (s := s.shareIf sh) (by rw [tvals_shareIf]; exact fun y hy => lt_trans (s4 y hy x (by simp)) hlt) hlt _ (row_good limit sh e' rest s3)
          rw [tvals_shareIf] at this
          exact this
end
end

/-! ### Its shape -/

mutual
/-- A tree of height `n` in which the root has at least `m` entries and every other node at least half of what fits; all nodes have less than `limit` entries. -/
def TOk (limit : Nat) : Nat → Nat → Tree α → Prop
  | _, n, .leaf => n = 0
  | m, n, .node _ row => m ≤ row.length ∧ row.length < limit ∧ ∃ k, n = k + 1 ∧ ROk limit k row
/-- The children are such trees of height `n`. -/
def ROk (limit : Nat) : Nat → Row α → Prop
  | n, .last g => TOk limit (limit / 2) n g
  | n, .cons s _ rest => TOk limit (limit / 2) n s ∧ ROk limit n rest
end

theorem tok_share {limit m n : Nat} {t : Tree α} (h : TOk limit m n t) : TOk limit m n t.share := by
  cases t with
  | leaf => exact h
  | node sh row => simp only [TOk, Tree.share] at h ⊢; exact h
theorem tok_shareIf {limit m n : Nat} {t : Tree α} (sh : Bool) (h : TOk limit m n t) : TOk limit m n (t.shareIf sh) := by
  cases sh with
  | false => exact h
  | true => exact tok_share h
theorem length_shareIf (sh : Bool) : ∀ row : Row α, (row.shareIf sh).length = row.length
  | .last g => rfl
  | .cons s v rest => by simp only [Row.shareIf, Row.length, length_shareIf sh rest]
theorem rok_shareIf {limit n : Nat} (sh : Bool) : ∀ {row : Row α}, ROk limit n row → ROk limit n (row.shareIf sh)
  | .last g, h => by simp only [ROk, Row.shareIf] at h ⊢; exact tok_shareIf sh h
  | .cons s v rest, h => by simp only [ROk, Row.shareIf] at h ⊢; exact ⟨tok_shareIf sh h.1, rok_shareIf sh h.2⟩
theorem length_shareFirst : ∀ (k : Nat) (row : Row α), (row.shareFirst k).length = row.length
  | 0, .last _ => rfl
  | 0, .cons _ _ _ => rfl
  | _ + 1, .last _ => rfl
  | k + 1, .cons s v rest => by simp only [Row.shareFirst, Row.length, length_shareFirst k rest]
theorem rok_shareFirst {limit n : Nat} : ∀ (k : Nat) {row : Row α}, ROk limit n row → ROk limit n (row.shareFirst k)
  | 0, .last _, h => h
  | 0, .cons _ _ _, h => h
  | _ + 1, .last _, h => h
  | k + 1, .cons s v rest, h => by simp only [ROk, Row.shareFirst] at h ⊢; exact ⟨tok_share h.1, rok_shareFirst k h.2⟩

theorem splitAt_ok {limit n : Nat} : ∀ (i : Nat) (row l : Row α) (p : α) (r : Row α), row.splitAt i = some (l, p, r) → ROk limit n row → ROk limit n l ∧ ROk limit n r
  | 0, .cons s v rest, l, p, r, h, hr => by cases h; simp only [ROk] at hr ⊢; exact hr
  | 0, .last _, _, _, _, h, _ => by cases h
  | _ + 1, .last _, _, _, _, h, _ => by cases h
  | i + 1, .cons s v rest, l, p, r, h, hr => by
    simp only [Row.splitAt, Option.map_eq_some_iff] at h
    obtain ⟨⟨l', p', r'⟩, h1, h2⟩ := h
    cases h2
    simp only [ROk] at hr ⊢
    have := splitAt_ok i rest _ _ _ h1 hr.2
    exact ⟨⟨hr.1, this.1⟩, this.2⟩

def Shape (q m n : Nat) : Out α → Prop
  | .done _ t _ => TOk (2 * q + 1) m n t
  | .split _ t _ r => TOk (2 * q + 1) q n t ∧ TOk (2 * q + 1) q n r
  | .unwound _ _ t => TOk (2 * q + 1) m n t

def RShape (q n len : Nat) : RowOut α → Prop
  | .done _ row _ => ROk (2 * q + 1) n row ∧ row.length = len
  | .grown _ row => ROk (2 * q + 1) n row ∧ row.length = len + 1
  | .unwound _ _ row => ROk (2 * q + 1) n row ∧ row.length = len

theorem half (q : Nat) : (2 * q + 1) / 2 = q := by omega

theorem shape_up {q m n len : Nat} (hm : m ≤ q) (h1 : m ≤ len) (h2 : len < 2 * q + 1) (o : RowOut α) (h : RShape q n len o) : Shape q m (n + 1) (o.up (2 * q + 1)) := by
  cases o with
  | done e row old => exact ⟨by rw [h.2]; exact h1, by rw [h.2]; exact h2, n, rfl, h.1⟩
  | unwound e k row => exact ⟨by rw [h.2]; exact h1, by rw [h.2]; exact h2, n, rfl, h.1⟩
  | grown e row =>
    obtain ⟨hr, hl⟩ := h
    simp only [RowOut.up, finish, half]
    split
    · rename_i hfull
      obtain ⟨l, p, r, hs⟩ := splitAt_some q row (by omega)
      obtain ⟨hl1, hl2⟩ := splitAt_length _ _ _ _ _ hs
      obtain ⟨ho1, ho2⟩ := splitAt_ok _ _ _ _ _ hs hr
      rw [hs]
      dsimp only
      split
      · exact ⟨by omega, by omega, n, rfl, ho1⟩
      · exact ⟨⟨by omega, by omega, n, rfl, ho1⟩, ⟨by omega, by omega, n, rfl, ho2⟩⟩
    · exact ⟨by omega, by omega, n, rfl, hr⟩

theorem shape_last {q n : Nat} (o : Out α) (h : Shape q q n o) : RShape q n 0 o.atLast := by
  cases o with
  | done e t old => exact ⟨by simp only [ROk, half]; exact h, rfl⟩
  | split e t p r => exact ⟨by simp only [ROk, half]; exact h, rfl⟩
  | unwound e k t => exact ⟨by simp only [ROk, half]; exact h, rfl⟩

theorem shape_entry {q n : Nat} (x : α) {rest : Row α} (hr : ROk (2 * q + 1) n rest) (o : Out α) (h : Shape q q n o) : RShape q n (rest.length + 1) (o.atEntry x rest) := by
  cases o with
  | done e t old => exact ⟨by simp only [ROk, half]; exact ⟨h, hr⟩, rfl⟩
  | split e t p r => exact ⟨by simp only [ROk, half]; exact ⟨h.1, h.2, hr⟩, rfl⟩
  | unwound e k t => exact ⟨by simp only [ROk, half]; exact ⟨h, hr⟩, rfl⟩

theorem shape_cons {q n len : Nat} {s : Tree α} (hs : TOk (2 * q + 1) q n s) (x : α) (o : RowOut α) (h : RShape q n len o) : RShape q n (len + 1) (o.cons s x) := by
  cases o with
  | done e row old => exact ⟨by simp only [ROk, half]; exact ⟨hs, h.1⟩, congrArg (· + 1) h.2⟩
  | grown e row => exact ⟨by simp only [ROk, half]; exact ⟨hs, h.1⟩, congrArg (· + 1) h.2⟩
  | unwound e k row => exact ⟨by simp only [ROk, half]; exact ⟨hs, h.1⟩, congrArg (· + 1) h.2⟩

section
variable [LinearOrder κ] (key : α → κ) (v : α)

mutual
theorem tree_shape (q : Nat) (sh : Bool) (e : Env α) : ∀ (m n : Nat) (t : Tree α), m ≤ q → TOk (2 * q + 1) m n t → Shape q m n (t.ins key (2 * q + 1) sh e v)
  | m, n, .leaf, _, h => by
    simp only [Tree.ins, Shape]
    simp only [TOk] at h ⊢
    exact ⟨h, h⟩
  | m, n, .node shared row, hm, h => by
    simp only [TOk] at h
    obtain ⟨h1, h2, k, rfl, h3⟩ := h
    simp only [Tree.ins]
    split
    · split
      · exact ⟨by rw [length_shareFirst]; exact h1, by rw [length_shareFirst]; exact h2, k, rfl, rok_shareFirst _ h3⟩
      · split
        · exact ⟨h1, h2, k, rfl, h3⟩
        · exact shape_up hm h1 h2 _ (row_shape q true _ k row h3)
    · exact shape_up hm h1 h2 _ (row_shape q false _ k row h3)
theorem row_shape (q : Nat) (sh : Bool) (e : Env α) : ∀ (n : Nat) (row : Row α), ROk (2 * q + 1) n row → RShape q n row.length (row.ins key (2 * q + 1) sh e v)
  | n, .last g, h => by
    simp only [ROk, half] at h
    simp only [Row.ins]
    exact shape_last _ (tree_shape q sh e q n g (Nat.le_refl _) h)
  | n, .cons s x rest, h => by
    simp only [ROk, half] at h
    simp only [Row.ins]
    split
    · refine ⟨?_, ?_⟩
      · simp only [ROk, half]; exact ⟨tok_shareIf sh h.1, rok_shareIf sh h.2⟩
      · simp only [Row.length, length_shareIf]
    · rename_i e' _
      split
      · refine ⟨?_, ?_⟩
        · simp only [ROk, half]; exact ⟨tok_shareIf sh h.1, rok_shareIf sh h.2⟩
        · simp only [Row.length, length_shareIf]
      · split
        · have := shape_entry x (rok_shareIf sh h.2) _ (tree_shape q sh e' q n s (Nat.le_refl _) h.1)
          rw [length_shareIf] at this
          exact this
        · exact shape_cons (tok_shareIf sh h.1) x _ (row_shape q sh e' n rest h.2)
end
end

/-! ### The ledger -/

section
variable [DecidableEq α]

theorem owned_share (t : Tree α) : t.share.owned = [] := by cases t <;> simp [Tree.share, Tree.owned]
theorem owned_shared : ∀ row : Row α, (row.shareIf true).owned = row.values
  | .last g => by simp [Row.shareIf, Row.owned, Row.values, Tree.shareIf, owned_share]
  | .cons s v rest => by simp [Row.shareIf, Row.owned, Row.values, Tree.shareIf, owned_share, owned_shared rest]
theorem shareIf_false : ∀ row : Row α, row.shareIf false = row
  | .last g => rfl
  | .cons s v rest => by simp only [Row.shareIf, Tree.shareIf, shareIf_false rest]; rfl

theorem splitAt_owned : ∀ (i : Nat) (row l : Row α) (p : α) (r : Row α), row.splitAt i = some (l, p, r) → row.owned = l.owned ++ p :: r.owned
  | 0, .cons s v rest, l, p, r, h => by cases h; simp [Row.owned]
  | 0, .last _, _, _, _, h => by cases h
  | _ + 1, .last _, _, _, _, h => by cases h
  | i + 1, .cons s v rest, l, p, r, h => by
    simp only [Row.splitAt, Option.map_eq_some_iff] at h
    obtain ⟨⟨l', p', r'⟩, h1, h2⟩ := h
    cases h2
    simp [Row.owned, splitAt_owned i rest _ _ _ h1]

/-- From one ledger to the next: what was owned and given, and the clones made in between, is owned, handed back, dropped or leaked. -/
def Kept (x : α) (given : List α) (e : Env α) (keeps : List α) (e' : Env α) : Prop :=
  given.count x + e'.cloned.count x + e.dropped.count x + e.leaked.count x = keeps.count x + e.cloned.count x + e'.dropped.count x + e'.leaked.count x

def Ledger (x : α) (given : List α) (e : Env α) : Out α → Prop
  | .done e' t old => Kept x given e (t.owned ++ old.toList) e' ∧ e'.leaked = e.leaked
  | .split e' t p r => Kept x given e (t.owned ++ p :: r.owned) e' ∧ e'.leaked = e.leaked
  | .unwound e' k t => Kept x given e t.owned e' ∧ (k ≠ .clone → e'.leaked = e.leaked)

def RLedger (x : α) (given : List α) (e : Env α) : RowOut α → Prop
  | .done e' row old => Kept x given e (row.owned ++ old.toList) e' ∧ e'.leaked = e.leaked
  | .grown e' row => Kept x given e row.owned e' ∧ e'.leaked = e.leaked
  | .unwound e' k row => Kept x given e row.owned e' ∧ (k ≠ .clone → e'.leaked = e.leaked)

omit [DecidableEq α] in
theorem call_ledger {e e' : Env α} (h : e.call = some e') : e'.dropped = e.dropped ∧ e'.cloned = e.cloned ∧ e'.leaked = e.leaked := by
  unfold Env.call at h
  split at h
  · cases h
  · cases h; exact ⟨rfl, rfl, rfl⟩

theorem ledger_up (x : α) (limit : Nat) {given : List α} {e : Env α} (o : RowOut α) (h : RLedger x given e o) : Ledger x given e (o.up limit) := by
  cases o with
  | done e' row old => simp only [RowOut.up, Ledger, Tree.owned]; exact h
  | unwound e' k row => simp only [RowOut.up, Ledger, Tree.owned]; exact h
  | grown e' row =>
    obtain ⟨hk, hl⟩ := h
    simp only [RowOut.up, finish]
    split
    · split
      · simp only [Ledger, Tree.owned, Option.toList, List.append_nil]; exact ⟨hk, hl⟩
      · rename_i l p r hs
        have ho := splitAt_owned _ _ _ _ _ hs
        split
        · refine ⟨?_, fun _ => hl⟩
          unfold Kept at hk ⊢
          rw [ho] at hk
          simp only [List.count_append, List.count_cons] at hk
          simp only [Env.drop, Tree.owned, List.count_append, List.count_cons]
          omega
        · rename_i e2 he
          obtain ⟨c1, c2, c3⟩ := call_ledger he
          refine ⟨?_, by rw [c3]; exact hl⟩
          unfold Kept at hk ⊢
          rw [c1, c2, c3]
          simp only [Tree.owned]
          rw [← ho]; exact hk
    · simp only [Ledger, Tree.owned, Option.toList, List.append_nil]; exact ⟨hk, hl⟩

theorem ledger_last (x : α) {given : List α} {e : Env α} (o : Out α) (h : Ledger x given e o) : RLedger x given e o.atLast := by
  cases o with
  | done e' t old => simp only [Out.atLast, RLedger, Row.owned]; exact h
  | split e' t p r => simp only [Out.atLast, RLedger, Row.owned]; exact h
  | unwound e' k t => simp only [Out.atLast, RLedger, Row.owned]; exact h

theorem ledger_entry (x : α) {given : List α} {e : Env α} (y : α) (rest : Row α) (o : Out α) (h : Ledger x given e o) :
    RLedger x (given ++ y :: rest.owned) e (o.atEntry y rest) := by
  cases o with
  | done e' t old =>
    obtain ⟨h, hl⟩ := h
    refine ⟨?_, hl⟩
    unfold Kept at h ⊢
    simp only [Row.owned, List.count_append, List.count_cons] at h ⊢
    omega
  | split e' t p r =>
    obtain ⟨h, hl⟩ := h
    refine ⟨?_, hl⟩
    unfold Kept at h ⊢
    simp only [Row.owned, List.count_append, List.count_cons] at h ⊢
    omega
  | unwound e' k t =>
    obtain ⟨h, hl⟩ := h
    refine ⟨?_, hl⟩
    unfold Kept at h ⊢
    simp only [Row.owned, List.count_append, List.count_cons] at h ⊢
    omega

theorem ledger_cons (x : α) {given : List α} {e : Env α} (s : Tree α) (y : α) (o : RowOut α) (h : RLedger x given e o) :
    RLedger x (given ++ s.owned ++ [y]) e (o.cons s y) := by
  cases o with
  | done e' t old =>
    obtain ⟨h, hl⟩ := h
    refine ⟨?_, hl⟩
    unfold Kept at h ⊢
    simp only [Row.owned, List.count_append, List.count_cons, List.count_nil] at h ⊢
    omega
  | grown e' t =>
    obtain ⟨h, hl⟩ := h
    refine ⟨?_, hl⟩
    unfold Kept at h ⊢
    simp only [Row.owned, List.count_append, List.count_cons, List.count_nil] at h ⊢
    omega
  | unwound e' k t =>
    obtain ⟨h, hl⟩ := h
    refine ⟨?_, hl⟩
    unfold Kept at h ⊢
    simp only [Row.owned, List.count_append, List.count_cons, List.count_nil] at h ⊢
    omega

theorem cloneAll_ledger (x : α) : ∀ (vs : List α) (e : Env α) (n : Nat) (done : List α),
    (cloneAll e n done vs).1.dropped = e.dropped ∧
    ((cloneAll e n done vs).2 = none → (cloneAll e n done vs).1.cloned = e.cloned ++ vs ∧ (cloneAll e n done vs).1.leaked = e.leaked) ∧
    ((cloneAll e n done vs).2 ≠ none → (cloneAll e n done vs).1.cloned.count x + done.count x + e.leaked.count x = e.cloned.count x + (cloneAll e n done vs).1.leaked.count x)
  | [], e, n, done => by simp [cloneAll]
  | v :: vs, e, n, done => by
    simp only [cloneAll]
    split
    · refine ⟨rfl, ?_, ?_⟩
      · intro h; cases h
      · intro _; simp only [List.count_append]; omega
    · rename_i e' he
      obtain ⟨c1, c2, c3⟩ := call_ledger he
      obtain ⟨i1, i2, i3⟩ := cloneAll_ledger x vs { e' with cloned := e'.cloned ++ [v] } (n + 1) (done ++ [v])
      refine ⟨by rw [i1]; exact c1, fun h => ?_, fun h => ?_⟩
      · obtain ⟨j1, j2⟩ := i2 h
        rw [j1, j2]
        simp [c2, c3]
      · have h3 := i3 h
        have a2 : (e'.cloned ++ [v]).count x = e.cloned.count x + [v].count x := by rw [List.count_append, c2]
        have a3 : e'.leaked.count x = e.leaked.count x := by rw [c3]
        have a4 : (done ++ [v]).count x = done.count x + [v].count x := List.count_append
        dsimp only at h3
        omega

variable [LinearOrder κ] (key : α → κ) (v : α)

mutual
theorem tree_ledger (x : α) (limit : Nat) (sh : Bool) (e : Env α) : ∀ t : Tree α, Ledger x ((t.shareIf sh).owned ++ [v]) e (t.ins key limit sh e v)
  | .leaf => by
    simp only [Tree.ins]
    refine ⟨?_, rfl⟩
    have : (Tree.leaf : Tree α).shareIf sh = .leaf := by cases sh <;> rfl
    simp [Kept, this, Tree.owned]
  | .node shared row => by
    simp only [Tree.ins]
    split
    · rename_i hsh
      have h0 : ((Tree.node shared row).shareIf sh).owned = [] := by
        cases sh with
        | true => rfl
        | false => simp at hsh; subst hsh; rfl
      rw [h0]
      have hc := cloneAll_ledger x row.values e 0 []
      split
      · rename_i e1 n heq
        rw [heq] at hc
        obtain ⟨c1, -, c3⟩ := hc
        refine ⟨?_, fun h => absurd rfl h⟩
        have := c3 (by simp)
        simp only [List.count_nil] at this
        simp only [Kept, Env.drop, Tree.owned, List.count_append, List.count_nil, c1]
        dsimp only at this c1
        rw [c1]
        omega
      · rename_i e1 heq
        rw [heq] at hc
        obtain ⟨c1, c2, -⟩ := hc
        obtain ⟨c2, c3⟩ := c2 rfl
        dsimp only at c1 c2 c3
        split
        · refine ⟨?_, fun _ => c3⟩
          simp only [Kept, Env.drop, Tree.owned, List.count_append, List.count_nil, c1, c2, c3]
          omega
        · rename_i e2 he
          obtain ⟨d1, d2, d3⟩ := call_ledger he
          have := ledger_up x limit _ (row_ledger x limit true e2 row)
          rw [owned_shared] at this
          generalize (Row.ins key limit true e2 v row).up limit = o at this ⊢
          cases o with
          | done e' t old =>
            obtain ⟨h1, h2⟩ := this
            refine ⟨?_, by rw [h2, d3, c3]⟩
            simp only [Kept, List.count_append, d1, d2, d3, c1, c2, c3, List.count_nil] at h1 ⊢
            omega
          | split e' t p r =>
            obtain ⟨h1, h2⟩ := this
            refine ⟨?_, by rw [h2, d3, c3]⟩
            simp only [Kept, List.count_append, d1, d2, d3, c1, c2, c3, List.count_nil] at h1 ⊢
            omega
          | unwound e' k t =>
            obtain ⟨h1, h2⟩ := this
            refine ⟨?_, fun hk => by rw [h2 hk, d3, c3]⟩
            simp only [Kept, List.count_append, d1, d2, d3, c1, c2, c3, List.count_nil] at h1 ⊢
            omega
    · rename_i hsh
      simp only [Bool.or_eq_true, not_or, Bool.not_eq_true] at hsh
      obtain ⟨rfl, rfl⟩ := hsh
      have := ledger_up x limit _ (row_ledger x limit false e row)
      rw [shareIf_false] at this
      exact this
theorem row_ledger (x : α) (limit : Nat) (sh : Bool) (e : Env α) : ∀ row : Row α, RLedger x ((row.shareIf sh).owned ++ [v]) e (row.ins key limit sh e v)
  | .last g => by
    simp only [Row.ins, Row.shareIf, Row.owned]
    exact ledger_last x _ (tree_ledger x limit sh e g)
  | .cons s y rest => by
    simp only [Row.ins, Row.shareIf]
    split
    · refine ⟨?_, fun _ => rfl⟩
      simp only [Kept, Env.drop, Row.owned, List.count_append, List.count_cons, List.count_nil]
      omega
    · rename_i e' he
      obtain ⟨c1, c2, c3⟩ := call_ledger he
      have key' : ∀ (o : RowOut α) (g : List α), RLedger x g e' o → g.count x = ((Row.cons (s.shareIf sh) y (rest.shareIf sh)).owned ++ [v]).count x →
          RLedger x ((Row.cons (s.shareIf sh) y (rest.shareIf sh)).owned ++ [v]) e o := by
        intro o g ho hg
        cases o with
        | done e2 row old => obtain ⟨h1, h2⟩ := ho; exact ⟨by unfold Kept at h1 ⊢; rw [← hg, ← c1, ← c2, ← c3]; exact h1, by rw [h2, c3]⟩
        | grown e2 row => obtain ⟨h1, h2⟩ := ho; exact ⟨by unfold Kept at h1 ⊢; rw [← hg, ← c1, ← c2, ← c3]; exact h1, by rw [h2, c3]⟩
        | unwound e2 k row => obtain ⟨h1, h2⟩ := ho; exact ⟨by unfold Kept at h1 ⊢; rw [← hg, ← c1, ← c2, ← c3]; exact h1, fun hk => by rw [h2 hk, c3]⟩
      split
      · refine key' _ ((Row.cons (s.shareIf sh) y (rest.shareIf sh)).owned ++ [v]) ⟨?_, rfl⟩ rfl
        simp only [Kept, Row.owned, List.count_append, List.count_cons, Option.toList, List.count_nil]
        omega
      · split
        · refine key' _ _ (ledger_entry x y (rest.shareIf sh) _ (tree_ledger x limit sh e' s)) ?_
          simp only [Row.owned, List.count_append, List.count_cons, List.count_nil]
          omega
        · refine key' _ _ (ledger_cons x (s.shareIf sh) y _ (row_ledger x limit sh e' rest)) ?_
          simp only [Row.owned, List.count_append, List.count_cons, List.count_nil]
          omega
end
end

/-! ### What there was to fail -/

section
variable [LinearOrder κ] (key : α → κ) (v : α)

/-- Something unwinds only when no more calls succeed. -/
def Spent : Out α → Prop
  | .unwound e _ _ => e.left = 0
  | _ => True
def RSpent : RowOut α → Prop
  | .unwound e _ _ => e.left = 0
  | _ => True

theorem call_spent {e : Env α} (h : e.call = none) : e.left = 0 := by
  unfold Env.call at h
  split at h
  · assumption
  · cases h

theorem cloneAll_spent : ∀ (vs : List α) (e : Env α) (n : Nat) (done : List α), (cloneAll e n done vs).2 ≠ none → (cloneAll e n done vs).1.left = 0
  | [], e, n, done, h => absurd rfl h
  | v :: vs, e, n, done, h => by
    simp only [cloneAll] at h ⊢
    split
    · rename_i hc; have := call_spent hc; exact this
    · rename_i e' he
      rw [he] at h
      exact cloneAll_spent vs _ _ _ h

theorem spent_up (limit : Nat) (o : RowOut α) (h : RSpent o) : Spent (o.up limit) := by
  cases o with
  | done => trivial
  | unwound => exact h
  | grown e row =>
    simp only [RowOut.up, finish]
    split
    · split
      · trivial
      · split
        · rename_i hc; have := call_spent hc; exact this
        · trivial
    · trivial

mutual
theorem tree_spent (limit : Nat) (sh : Bool) (e : Env α) : ∀ t : Tree α, Spent (t.ins key limit sh e v)
  | .leaf => by simp only [Tree.ins]; trivial
  | .node shared row => by
    simp only [Tree.ins]
    split
    · split
      · rename_i e1 n heq
        have := cloneAll_spent row.values e 0 []
        rw [heq] at this
        exact this (fun h => nomatch h)
      · split
        · rename_i hc; have := call_spent hc; exact this
        · exact spent_up limit _ (row_spent limit true _ row)
    · exact spent_up limit _ (row_spent limit false _ row)
theorem row_spent (limit : Nat) (sh : Bool) (e : Env α) : ∀ row : Row α, RSpent (row.ins key limit sh e v)
  | .last g => by
    simp only [Row.ins]
    have := tree_spent limit sh e g
    cases h : Tree.ins key limit sh e v g <;> rw [h] at this <;> exact this
  | .cons s x rest => by
    simp only [Row.ins]
    split
    · rename_i hc; have := call_spent hc; exact this
    · rename_i e' _
      split
      · trivial
      · split
        · have := tree_spent limit sh e' s
          cases h : Tree.ins key limit sh e' v s <;> rw [h] at this <;> exact this
        · have := row_spent limit sh e' rest
          cases h : Row.ins key limit sh e' v rest <;> rw [h] at this <;> exact this
end

/-! ### Looking for a value -/

mutual
theorem get_ledger (k : κ) : ∀ (t : Tree α) (e : Env α), (t.get key e k).1.dropped = e.dropped ∧ (t.get key e k).1.cloned = e.cloned ∧ (t.get key e k).1.leaked = e.leaked ∧
    ((t.get key e k).2 = none → (t.get key e k).1.left = 0)
  | .leaf, e => by simp [Tree.get]
  | .node _ row, e => by simp only [Tree.get]; exact rget_ledger k row e
theorem rget_ledger (k : κ) : ∀ (row : Row α) (e : Env α), (row.get key e k).1.dropped = e.dropped ∧ (row.get key e k).1.cloned = e.cloned ∧ (row.get key e k).1.leaked = e.leaked ∧
    ((row.get key e k).2 = none → (row.get key e k).1.left = 0)
  | .last g, e => by simp only [Row.get]; exact get_ledger k g e
  | .cons s x rest, e => by
    simp only [Row.get]
    cases hc : e.call with
    | none => exact ⟨rfl, rfl, rfl, fun _ => call_spent hc⟩
    | some e1 =>
      obtain ⟨c1, c2, c3⟩ := call_ledger hc
      dsimp only
      rw [← c1, ← c2, ← c3]
      split
      · exact ⟨rfl, rfl, rfl, fun h => nomatch h⟩
      · split
        · exact get_ledger k s e1
        · exact rget_ledger k rest e1
end

mutual
theorem tree_get (k : κ) : ∀ (t : Tree α) (e : Env α) (b : Bool), Sorted key (tvals t) → (t.get key e k).2 = some b → (b = true ↔ ∃ x ∈ tvals t, key x = k)
  | .leaf, e, b, _, hb => by cases hb; simp [tvals]
  | .node _ row, e, b, h, hb => by
    simp only [Tree.get] at hb
    simp only [tvals] at h ⊢
    exact row_get k row e b h hb
theorem row_get (k : κ) : ∀ (row : Row α) (e : Env α) (b : Bool), Sorted key (rvals row) → (row.get key e k).2 = some b → (b = true ↔ ∃ x ∈ rvals row, key x = k)
  | .last g, e, b, h, hb => by
    simp only [Row.get] at hb
    simp only [rvals] at h ⊢
    exact tree_get k g e b h hb
  | .cons s x rest, e, b, h, hb => by
    unfold Sorted at h
    simp only [rvals] at h
    obtain ⟨h1, h2, h3⟩ := List.pairwise_append.mp h
    obtain ⟨h4, h5⟩ := List.pairwise_cons.mp h2
    simp only [Row.get] at hb
    cases hc : e.call with
    | none => rw [hc] at hb; cases hb
    | some e1 =>
      rw [hc] at hb
      dsimp only at hb
      by_cases hx : key x = k
      · rw [if_pos hx] at hb
        cases hb
        exact ⟨fun _ => ⟨x, by simp [rvals], hx⟩, fun _ => rfl⟩
      · rw [if_neg hx] at hb
        by_cases hk : k < key x
        · rw [if_pos hk] at hb
          refine (tree_get k s e1 b h1 hb).trans ⟨?_, ?_⟩
          · rintro ⟨y, hy, e⟩; exact ⟨y, by simp [rvals, hy], e⟩
          · rintro ⟨y, hy, e⟩
            simp only [rvals, List.mem_append, List.mem_cons] at hy
            rcases hy with hy | hy | hy
            · exact ⟨y, hy, e⟩
            · subst hy; exact absurd e hx
            · exact absurd (lt_trans hk (h4 y hy)) (by rw [e]; exact lt_irrefl _)
        · rw [if_neg hk] at hb
          have hlt : key x < k := lt_of_le_of_ne (le_of_not_gt hk) hx
          refine (row_get k rest e1 b h5 hb).trans ⟨?_, ?_⟩
          · rintro ⟨y, hy, e⟩; exact ⟨y, by simp [rvals, hy], e⟩
          · rintro ⟨y, hy, e⟩
            simp only [rvals, List.mem_append, List.mem_cons] at hy
            rcases hy with hy | hy | hy
            · exact absurd (lt_trans (h3 y hy x (by simp)) hlt) (by rw [e]; exact lt_irrefl _)
            · subst hy; exact absurd e hx
            · exact ⟨y, hy, e⟩
end

/-! ### Sets -/

/-- `L'` is `L` with `v` in the place of what compares equal to it, which is `old`. -/
def Inserted (L : List α) (old : Option α) (L' : List α) : Prop :=
  (∀ x, x ∈ L' ↔ x = v ∨ (x ∈ L ∧ key x ≠ key v)) ∧ Sorted key L' ∧ ∀ x, old = some x ↔ x ∈ L ∧ key x = key v

theorem inserted_ins {L : List α} (h : Sorted key L) : Inserted key v L (ins key v L).1 (ins key v L).2 := by
  refine ⟨?_, Verif.BTree.ins_sorted key v h, ?_⟩
  · induction L with
    | nil => simp [ins]
    | cons y l ih =>
      obtain ⟨h1, h2⟩ := List.pairwise_cons.mp h
      intro x
      have := ih h2 x
      simp only [ins]
      by_cases a : key y < key v
      · rw [if_pos a]
        have hy : key y ≠ key v := ne_of_lt a
        simp only [List.mem_cons, this]
        constructor
        · rintro (rfl | rfl | ⟨h, h'⟩)
          · exact Or.inr ⟨Or.inl rfl, hy⟩
          · exact Or.inl rfl
          · exact Or.inr ⟨Or.inr h, h'⟩
        · rintro (rfl | ⟨rfl | h, h'⟩)
          · exact Or.inr (Or.inl rfl)
          · exact Or.inl rfl
          · exact Or.inr (Or.inr ⟨h, h'⟩)
      · rw [if_neg a]
        by_cases b : key y = key v
        · rw [if_pos b]
          simp only [List.mem_cons]
          constructor
          · rintro (rfl | h)
            · exact Or.inl rfl
            · exact Or.inr ⟨Or.inr h, fun c => absurd (h1 x h) (by rw [b, c]; exact lt_irrefl _)⟩
          · rintro (rfl | ⟨rfl | h, h'⟩)
            · exact Or.inl rfl
            · exact absurd b h'
            · exact Or.inr h
        · rw [if_neg b]
          have hvy : key v < key y := lt_of_le_of_ne (le_of_not_gt a) (Ne.symm b)
          simp only [List.mem_cons]
          constructor
          · rintro (rfl | rfl | h)
            · exact Or.inl rfl
            · exact Or.inr ⟨Or.inl rfl, b⟩
            · exact Or.inr ⟨Or.inr h, ne_of_gt (lt_trans hvy (h1 x h))⟩
          · rintro (rfl | ⟨h, -⟩)
            · exact Or.inl rfl
            · exact Or.inr h
  · induction L with
    | nil => simp [ins]
    | cons y l ih =>
      obtain ⟨h1, h2⟩ := List.pairwise_cons.mp h
      intro x
      have := ih h2 x
      simp only [ins]
      by_cases a : key y < key v
      · rw [if_pos a]
        simp only [List.mem_cons, this]
        constructor
        · rintro ⟨h, h'⟩; exact ⟨Or.inr h, h'⟩
        · rintro ⟨rfl | h, h'⟩
          · exact absurd h' (ne_of_lt a)
          · exact ⟨h, h'⟩
      · rw [if_neg a]
        by_cases b : key y = key v
        · rw [if_pos b]
          simp only [List.mem_cons, Option.some.injEq]
          constructor
          · rintro rfl; exact ⟨Or.inl rfl, b⟩
          · rintro ⟨rfl | h, h'⟩
            · rfl
            · exact absurd (h1 x h) (by rw [b, h']; exact lt_irrefl _)
        · rw [if_neg b]
          have hvy : key v < key y := lt_of_le_of_ne (le_of_not_gt a) (Ne.symm b)
          simp only [List.mem_cons]
          constructor
          · intro h; cases h
          · rintro ⟨rfl | h, h'⟩
            · exact absurd h' b
            · exact absurd (lt_trans hvy (h1 x h)) (by rw [h']; exact lt_irrefl _)

/-- The elements of a set. -/
def vals (s : ASet α) : List α := tvals s.root

/-- A set as its methods leave it: sorted, balanced, nodes at least half full except for the root, and its allocator is in the set if it has no node and was moved to the root otherwise. -/
structure Valid (q : Nat) (s : ASet α) : Prop where
  sorted : Sorted key (vals s)
  shape : ∃ n, TOk (2 * q + 1) 1 n s.root
  alloc : s.taken = match s.root with | .leaf => 0 | .node _ _ => 1

/-- What an insertion amounts to, case by case. -/
theorem insert_cases (replace : Bool) (limit : Nat) (e : Env α) (s : ASet α) :
    (s.root = .leaf ∧ e.call = none ∧ s.insert key replace limit e v = (e.drop [v], ⟨.leaf, s.taken + 1⟩, .unwound .alloc)) ∨
    (∃ e1, s.root = .leaf ∧ e.call = some e1 ∧ s.insert key replace limit e v = (e1, ⟨.node false (.cons .leaf v (.last .leaf)), s.taken + 1⟩, .done none)) ∨
    ((∃ sh row, s.root = .node sh row) ∧
      ((∃ e1, replace = false ∧ s.root.get key e (key v) = (e1, none) ∧ s.insert key replace limit e v = (e1.drop [v], s, .unwound .cmp)) ∨
       (∃ e1, replace = false ∧ s.root.get key e (key v) = (e1, some true) ∧ s.insert key replace limit e v = (e1, s, .done (some v))) ∨
       (∃ e1, (replace = true ∧ e1 = e ∨ replace = false ∧ s.root.get key e (key v) = (e1, some false)) ∧
        ((∃ e2 t old, s.root.ins key limit false e1 v = .done e2 t old ∧ s.insert key replace limit e v = (e2, { s with root := t }, .done old)) ∨
         (∃ e2 k t, s.root.ins key limit false e1 v = .unwound e2 k t ∧ s.insert key replace limit e v = (e2, { s with root := t }, .unwound k)) ∨
         (∃ e2 t p r, s.root.ins key limit false e1 v = .split e2 t p r ∧
          ((e2.call = none ∧ s.insert key replace limit e v = (e2.drop (p :: r.owned), { s with root := t }, .unwound .alloc)) ∨
           (∃ e3, e2.call = some e3 ∧ s.insert key replace limit e v = (e3, { s with root := .node false (.cons t p (.last r)) }, .done none)))))))) := by
  obtain ⟨root, taken⟩ := s
  cases root with
  | leaf =>
    cases hc : e.call with
    | none => exact Or.inl ⟨rfl, rfl, by simp only [ASet.insert, hc]⟩
    | some e1 => exact Or.inr (Or.inl ⟨e1, rfl, rfl, by simp only [ASet.insert, hc]⟩)
  | node sh row =>
    refine Or.inr (Or.inr ⟨⟨sh, row, rfl⟩, ?_⟩)
    have tail : ∀ e1, (if replace then (e, some false) else (Tree.node sh row).get key e (key v)) = (e1, some false) →
        ((∃ e2 t old, (Tree.node sh row).ins key limit false e1 v = .done e2 t old ∧ ASet.insert key replace limit e ⟨.node sh row, taken⟩ v = (e2, ⟨t, taken⟩, .done old)) ∨
         (∃ e2 k t, (Tree.node sh row).ins key limit false e1 v = .unwound e2 k t ∧ ASet.insert key replace limit e ⟨.node sh row, taken⟩ v = (e2, ⟨t, taken⟩, .unwound k)) ∨
         (∃ e2 t p r, (Tree.node sh row).ins key limit false e1 v = .split e2 t p r ∧
          ((e2.call = none ∧ ASet.insert key replace limit e ⟨.node sh row, taken⟩ v = (e2.drop (p :: r.owned), ⟨t, taken⟩, .unwound .alloc)) ∨
           (∃ e3, e2.call = some e3 ∧ ASet.insert key replace limit e ⟨.node sh row, taken⟩ v = (e3, ⟨.node false (.cons t p (.last r)), taken⟩, .done none))))) := by
      intro e1 h1
      cases ho : (Tree.node sh row).ins key limit false e1 v with
      | done e2 t old => exact Or.inl ⟨e2, t, old, rfl, by simp only [ASet.insert, h1, ho]⟩
      | unwound e2 k t => exact Or.inr (Or.inl ⟨e2, k, t, rfl, by simp only [ASet.insert, h1, ho]⟩)
      | split e2 t p r =>
        refine Or.inr (Or.inr ⟨e2, t, p, r, rfl, ?_⟩)
        cases hc : e2.call with
        | none => exact Or.inl ⟨rfl, by simp only [ASet.insert, h1, ho, hc]⟩
        | some e3 => exact Or.inr ⟨e3, rfl, by simp only [ASet.insert, h1, ho, hc]⟩
    cases replace with
    | true => exact Or.inr (Or.inr ⟨e, Or.inl ⟨rfl, rfl⟩, tail e rfl⟩)
    | false =>
      rcases hg : (Tree.node sh row).get key e (key v) with ⟨e1, _ | _ | _⟩
      · exact Or.inl ⟨e1, rfl, rfl, by simp only [ASet.insert, hg]; rfl⟩
      · exact Or.inr (Or.inr ⟨e1, Or.inr ⟨rfl, rfl⟩, tail e1 hg⟩)
      · exact Or.inr (Or.inl ⟨e1, rfl, rfl, by simp only [ASet.insert, hg]; rfl⟩)
end

section
variable [LinearOrder κ] (key : α → κ) (v : α)

/-- An insertion that returns has done what it says: without `REPLACE_ON_INSERT`, a value that compares equal to one in the set is handed back, and nothing is cloned;
otherwise the value is in the set, in the place of what compared equal to it, which is handed back. -/
theorem C74_done {q : Nat} (replace : Bool) {e e' : Env α} {s s' : ASet α} {old : Option α} (hs : Valid key q s) (h : s.insert key replace (2 * q + 1) e v = (e', s', .done old)) :
    (replace = false ∧ (∃ x ∈ vals s, key x = key v) ∧ s' = s ∧ old = some v ∧ e'.cloned = e.cloned ∧ e'.dropped = e.dropped ∧ e'.leaked = e.leaked) ∨
      ((replace = true ∨ ∀ x ∈ vals s, key x ≠ key v) ∧ Inserted key v (vals s) old (vals s')) := by
  have hso := hs.sorted
  have hi := inserted_ins key v hso
  rcases insert_cases key v replace (2 * q + 1) e s with ⟨-, -, h1⟩ | ⟨e1, hr, -, h1⟩ | ⟨-, ⟨e1, -, -, h1⟩ | ⟨e1, hr, hg, h1⟩ | ⟨e1, hr, h1⟩⟩
  · rw [h1] at h; cases h
  · rw [h1] at h; cases h
    have hv : vals s = [] := by unfold vals; rw [hr]; rfl
    refine Or.inr ⟨Or.inr (by rw [hv]; simp), ?_⟩
    rw [hv] at hi ⊢
    exact hi
  · rw [h1] at h; cases h
  · rw [h1] at h; cases h
    have := get_ledger key (key v) s.root e
    rw [hg] at this
    exact Or.inl ⟨hr, (tree_get key (key v) s.root e true hso (by rw [hg])).mp rfl, rfl, rfl, this.2.1, this.1, this.2.2.1⟩
  · have hfree : replace = true ∨ ∀ x ∈ vals s, key x ≠ key v := by
      rcases hr with ⟨hr, -⟩ | ⟨-, hg⟩
      · exact Or.inl hr
      · refine Or.inr fun x hx hk => ?_
        have := (tree_get key (key v) s.root e false hso (by rw [hg])).mpr ⟨x, hx, hk⟩
        cases this
    have hgood := tree_good key v (2 * q + 1) false e1 s.root hso
    rcases h1 with ⟨e2, t, o, ho, h1⟩ | ⟨e2, k, t, ho, h1⟩ | ⟨e2, t, p, r, ho, ⟨-, h1⟩ | ⟨e3, -, h1⟩⟩
    · rw [h1] at h; cases h
      rw [ho] at hgood
      refine Or.inr ⟨hfree, ?_⟩
      rw [show ins key v (vals s) = (old, tvals t) from (hgood : _ = _).symm] at hi
      exact hi
    · rw [h1] at h; cases h
    · rw [h1] at h; cases h
    · rw [h1] at h; cases h
      rw [ho] at hgood
      refine Or.inr ⟨hfree, ?_⟩
      rw [show ins key v (vals s) = (none, tvals t ++ p :: tvals r) from (hgood : _ = _).symm] at hi
      exact hi

/-- When an insertion unwinds, because of a comparison or a clone, the set holds what it held.
Missing: when memory cannot be allocated, elements may be lost (`C74_lost_refuted`): then what is left is in order and was there before, or is the new value. -/
theorem C74_unwound_partial {q : Nat} (replace : Bool) {e e' : Env α} {s s' : ASet α} {k : Kind} (hs : Valid key q s) (h : s.insert key replace (2 * q + 1) e v = (e', s', .unwound k)) :
    e'.left = 0 ∧ (vals s' = vals s ∨
      (k = .alloc ∧ (∀ x ∈ vals s, key x ≠ key v) ∧ ∃ L, Inserted key v (vals s) none L ∧ (vals s').Sublist L)) := by
  have hso := hs.sorted
  have hi := inserted_ins key v hso
  rcases insert_cases key v replace (2 * q + 1) e s with ⟨hr, hc, h1⟩ | ⟨e1, hr, -, h1⟩ | ⟨-, ⟨e1, -, hg, h1⟩ | ⟨e1, hr, hg, h1⟩ | ⟨e1, hr, h1⟩⟩
  · rw [h1] at h; cases h
    have hsp := call_spent hc
    refine ⟨hsp, Or.inl ?_⟩
    unfold vals; rw [hr]
  · rw [h1] at h; cases h
  · rw [h1] at h; cases h
    have := get_ledger key (key v) s.root e
    rw [hg] at this
    exact ⟨this.2.2.2 rfl, Or.inl rfl⟩
  · rw [h1] at h; cases h
  · have hgood := tree_good key v (2 * q + 1) false e1 s.root hso
    have hspent := tree_spent key v (2 * q + 1) false e1 s.root
    have fin : ∀ L' : List α, L'.Sublist (ins key v (vals s)).2 → (ins key v (vals s)).1 = none →
        (∀ x ∈ vals s, key x ≠ key v) ∧ ∃ L, Inserted key v (vals s) none L ∧ L'.Sublist L := by
      intro L' hsub hn
      rw [hn] at hi
      refine ⟨fun x hx hk => ?_, _, hi, hsub⟩
      have := (hi.2.2 x).mpr ⟨hx, hk⟩
      cases this
    rcases h1 with ⟨e2, t, o, ho, h1⟩ | ⟨e2, k, t, ho, h1⟩ | ⟨e2, t, p, r, ho, ⟨hc, h1⟩ | ⟨e3, -, h1⟩⟩
    · rw [h1] at h; cases h
    · rw [h1] at h; cases h
      rw [ho] at hgood hspent
      refine ⟨hspent, ?_⟩
      rcases hgood with hg | ⟨hk, hsub, hn⟩
      · exact Or.inl hg
      · exact Or.inr ⟨hk, fin _ hsub hn⟩
    · rw [h1] at h; cases h
      rw [ho] at hgood
      have hsp := call_spent hc
      refine ⟨hsp, Or.inr ⟨rfl, ?_⟩⟩
      refine fin _ ?_ ?_
      · rw [show ins key v (vals s) = (none, tvals t ++ p :: tvals r) from (hgood : _ = _).symm]
        exact List.sublist_append_left _ _
      · rw [show ins key v (vals s) = (none, tvals t ++ p :: tvals r) from (hgood : _ = _).symm]
    · rw [h1] at h; cases h

/-- However an insertion ends, the set is sorted and balanced with nodes at least half full, and has its allocator.
Missing: the first insertion of a set, if memory cannot be allocated for it (`C74_allocator_refuted`). -/
theorem C74_valid_partial {q : Nat} (hq : 1 ≤ q) (replace : Bool) {e e' : Env α} {s s' : ASet α} {res : Res α} (hs : Valid key q s)
    (h : s.insert key replace (2 * q + 1) e v = (e', s', res)) (hmem : vals s = [] → res ≠ .unwound .alloc) : Valid key q s' := by
  obtain ⟨n, hn⟩ := hs.shape
  have hsorted : Sorted key (vals s') := by
    cases res with
    | done old =>
      rcases C74_done key v replace hs h with ⟨-, -, rfl, -⟩ | ⟨-, hi⟩
      · exact hs.sorted
      · exact hi.2.1
    | unwound k =>
      rcases (C74_unwound_partial key v replace hs h).2 with h' | ⟨-, -, L, hi, hsub⟩
      · rw [h']; exact hs.sorted
      · exact hi.2.1.sublist hsub
  have hsh := fun e1 => tree_shape key v q false e1 1 n s.root hq hn
  have hal := hs.alloc
  rcases insert_cases key v replace (2 * q + 1) e s with ⟨hr, -, h1⟩ | ⟨e1, hr, -, h1⟩ | ⟨⟨sh, row, hnode⟩, ⟨e1, -, hg, h1⟩ | ⟨e1, hr, hg, h1⟩ | ⟨e1, hr, h1⟩⟩
  · rw [h1] at h; cases h
    exact absurd rfl (hmem (by unfold vals; rw [hr]; rfl))
  · rw [h1] at h; cases h
    rw [hr] at hal
    refine ⟨hsorted, ⟨1, ?_⟩, ?_⟩
    · simp only [TOk, ROk, Row.length]
      refine ⟨by omega, by omega, 0, rfl, rfl, rfl⟩
    · dsimp only at hal ⊢; omega
  · rw [h1] at h; cases h; exact hs
  · rw [h1] at h; cases h; exact hs
  · rw [hnode] at hal
    have hsh := hsh e1
    have isnode : ∀ t : Tree α, TOk (2 * q + 1) 1 n t → (match t with | .leaf => 0 | .node _ _ => 1) = 1 := by
      intro t ht
      cases t with
      | leaf =>
        rw [hnode] at hn
        simp only [TOk] at ht hn
        obtain ⟨-, -, k, hk, -⟩ := hn
        omega
      | node sh row => rfl
    have weaken : ∀ t : Tree α, TOk (2 * q + 1) q n t → TOk (2 * q + 1) 1 n t := by
      intro t ht
      cases t with
      | leaf => exact ht
      | node sh row => simp only [TOk] at ht ⊢; exact ⟨by omega, ht.2⟩
    rcases h1 with ⟨e2, t, o, ho, h1⟩ | ⟨e2, k, t, ho, h1⟩ | ⟨e2, t, p, r, ho, ⟨hc, h1⟩ | ⟨e3, -, h1⟩⟩
    · rw [h1] at h; cases h
      rw [ho] at hsh
      exact ⟨hsorted, ⟨n, hsh⟩, hal.trans (isnode t hsh).symm⟩
    · rw [h1] at h; cases h
      rw [ho] at hsh
      exact ⟨hsorted, ⟨n, hsh⟩, hal.trans (isnode t hsh).symm⟩
    · rw [h1] at h; cases h
      rw [ho] at hsh
      exact ⟨hsorted, ⟨n, weaken t hsh.1⟩, hal.trans (isnode t (weaken t hsh.1)).symm⟩
    · rw [h1] at h; cases h
      rw [ho] at hsh
      refine ⟨hsorted, ⟨n + 1, ?_⟩, hal⟩
      simp only [TOk, ROk, Row.length, half]
      exact ⟨by omega, by omega, n, rfl, hsh.1, hsh.2⟩

/-- Every value that was there or given, and every clone, ends up exactly once in the set, with the caller, dropped or leaked; nothing leaks unless a clone unwinds. -/
theorem C74_ledger [DecidableEq α] (x : α) (replace : Bool) (limit : Nat) (e : Env α) (s : ASet α) :
    match s.insert key replace limit e v with
    | (e', s', res) =>
      Kept x (s.root.owned ++ [v]) e (s'.root.owned ++ (match res with | .done old => old.toList | .unwound _ => [])) e' ∧
        (res ≠ .unwound .clone → e'.leaked = e.leaked) := by
  rcases insert_cases key v replace limit e s with ⟨hr, hc, h1⟩ | ⟨e1, hr, hc, h1⟩ | ⟨⟨sh, row, hnode⟩, ⟨e1, -, hg, h1⟩ | ⟨e1, hr, hg, h1⟩ | ⟨e1, hr, h1⟩⟩
  · rw [h1]
    refine ⟨?_, fun _ => rfl⟩
    simp only [Kept, hr, Env.drop, Tree.owned, List.count_append, List.count_nil]; omega
  · rw [h1]
    obtain ⟨c1, c2, c3⟩ := call_ledger hc
    refine ⟨?_, fun _ => c3⟩
    simp only [Kept, hr, c1, c2, c3, Tree.owned, Row.owned, List.count_append, List.count_nil, List.count_cons, Option.toList]
    omega
  · rw [h1]
    have := get_ledger key (key v) s.root e
    rw [hg] at this
    obtain ⟨c1, c2, c3, -⟩ := this
    dsimp only at c1 c2 c3
    refine ⟨?_, fun _ => c3⟩
    simp only [Kept, Env.drop, c1, c2, c3, List.count_append, List.count_nil]; omega
  · rw [h1]
    have := get_ledger key (key v) s.root e
    rw [hg] at this
    obtain ⟨c1, c2, c3, -⟩ := this
    dsimp only at c1 c2 c3
    refine ⟨?_, fun _ => c3⟩
    simp only [Kept, c1, c2, c3, List.count_append, Option.toList]
  · have c : e1.dropped = e.dropped ∧ e1.cloned = e.cloned ∧ e1.leaked = e.leaked := by
      rcases hr with ⟨-, rfl⟩ | ⟨-, hg⟩
      · exact ⟨rfl, rfl, rfl⟩
      · have := get_ledger key (key v) s.root e
        rw [hg] at this
        exact ⟨this.1, this.2.1, this.2.2.1⟩
    obtain ⟨c1, c2, c3⟩ := c
    have hl := tree_ledger key v x limit false e1 s.root
    have hsame : s.root.shareIf false = s.root := rfl
    rw [hsame] at hl
    rcases h1 with ⟨e2, t, o, ho, h1⟩ | ⟨e2, k, t, ho, h1⟩ | ⟨e2, t, p, r, ho, ⟨hc, h1⟩ | ⟨e3, hc, h1⟩⟩
    · rw [h1]; rw [ho] at hl
      obtain ⟨l1, l2⟩ := hl
      refine ⟨?_, fun _ => l2.trans c3⟩
      simp only [Kept, c1, c2, c3] at l1 ⊢; exact l1
    · rw [h1]; rw [ho] at hl
      obtain ⟨l1, l2⟩ := hl
      refine ⟨?_, fun hk => (l2 fun h => hk (by rw [h])).trans c3⟩
      simp only [Kept, c1, c2, c3, List.append_nil] at l1 ⊢; exact l1
    · rw [h1]; rw [ho] at hl
      obtain ⟨l1, l2⟩ := hl
      refine ⟨?_, fun _ => l2.trans c3⟩
      simp only [Kept, Env.drop, c1, c2, c3, List.count_append, List.count_cons, List.count_nil] at l1 ⊢; omega
    · rw [h1]; rw [ho] at hl
      obtain ⟨d1, d2, d3⟩ := call_ledger hc
      obtain ⟨l1, l2⟩ := hl
      refine ⟨?_, fun _ => d3.trans (l2.trans c3)⟩
      simp only [Kept, c1, c2, c3, d1, d2, d3, Tree.owned, Row.owned, Option.toList, List.count_append, List.count_cons, List.count_nil] at l1 ⊢; omega
end

/-! ### What goes wrong -/

/-- Somebody else has handles on some of the nodes. -/
def full : ASet Nat := ⟨.node false (.cons .leaf 1 (.cons .leaf 2 (.last .leaf))), 1⟩

/-- When memory cannot be allocated for the second half of a node, half of its elements are gone from the set. -/
theorem C74_lost_refuted : Valid (id : Nat → Nat) 1 full ∧ vals full = [1, 2] ∧
    (match full.insert id true 3 ⟨2, [], [], []⟩ 3 with | (e', s', res) => e'.dropped = [2, 3] ∧ vals s' = [1] ∧ res = .unwound .alloc) := by
  refine ⟨⟨?_, ⟨1, ?_⟩, rfl⟩, rfl, ?_⟩
  · show List.Pairwise _ [1, 2]
    decide
  · simp only [full, TOk, ROk, Row.length]
    exact ⟨by omega, by omega, 0, rfl, rfl, rfl, rfl⟩
  · decide

/-- When a clone unwinds, the clones made of the values before it in the node leak. -/
theorem C74_leak_refuted : (match (⟨full.root.share, 1⟩ : ASet Nat).insert id true 3 ⟨1, [], [], []⟩ 3 with
    | (e', s', res) => e'.leaked = [1] ∧ e'.cloned = [1] ∧ e'.dropped = [3] ∧ vals s' = [1, 2] ∧ res = .unwound .clone) := by decide

/-- If memory cannot be allocated for the first node of a set, its allocator is dropped then and dropped again with the set. -/
theorem C74_allocator_refuted [LinearOrder κ] (key : α → κ) (replace : Bool) (limit : Nat) (v : α) :
    (match ASet.new.insert key replace limit ⟨0, [], [], []⟩ v with | (e', s', res) => e'.dropped = [v] ∧ res = .unwound .alloc ∧ s'.drop.1 = 2) := ⟨rfl, rfl, rfl⟩

/-- Otherwise it is dropped or moved to the nodes once. -/
theorem C74_allocator [LinearOrder κ] (key : α → κ) {q : Nat} (s : ASet α) (h : Valid key q s) : s.drop.1 = 1 := by
  have := h.alloc
  unfold ASet.drop
  cases hr : s.root with
  | leaf => rw [hr] at this; dsimp only at this ⊢; omega
  | node sh row => rw [hr] at this; exact this

theorem valid_new [LinearOrder κ] (key : α → κ) (q : Nat) : Valid key q (ASet.new : ASet α) := ⟨List.Pairwise.nil, ⟨0, rfl⟩, rfl⟩

/-! ### Examples -/

/-- A set of two levels, whose right leaf somebody else has a handle on. -/
def two : ASet Nat := ⟨.node false (.cons (.node false (.cons .leaf 1 (.last .leaf))) 2 (.last (.node true (.cons .leaf 3 (.cons .leaf 4 (.last .leaf)))))), 1⟩

theorem valid_two : Valid (id : Nat → Nat) 1 two := by
  refine ⟨?_, ⟨2, ?_⟩, rfl⟩
  · show List.Pairwise _ [1, 2, 3, 4]
    decide
  · simp only [two, TOk, ROk, Row.length]
    exact ⟨by omega, by omega, 1, rfl, ⟨by omega, by omega, 0, rfl, rfl, rfl⟩, by omega, by omega, 0, rfl, rfl, rfl, rfl⟩

-- The shared leaf is cloned (2 clones, 1 allocation), compared with (2 more), split (1 allocation): one comparison before.
example : (match two.insert id true 3 ⟨7, [], [], []⟩ 5 with | (e', s', res) => e'.left = 0 ∧ e'.cloned = [3, 4] ∧ vals s' = [1, 2, 3, 4, 5] ∧ res = .done none) := by decide
-- The allocation for its second half fails: the clones of 4 and 5 are dropped.
example : (match two.insert id true 3 ⟨6, [], [], []⟩ 5 with | (e', s', res) => e'.dropped = [4, 5] ∧ vals s' = [1, 2, 3] ∧ res = .unwound .alloc) := by decide
-- A comparison with a clone unwinds: the clone has replaced what was shared.
example : (match two.insert id true 3 ⟨5, [], [], []⟩ 5 with | (e', s', res) => e'.dropped = [5] ∧ vals s' = [1, 2, 3, 4] ∧ s'.root.owned = [1, 2, 3, 4] ∧ res = .unwound .cmp) := by decide
-- The allocation for the clone fails.
example : (match two.insert id true 3 ⟨3, [], [], []⟩ 5 with | (e', s', res) => e'.dropped = [3, 4, 5] ∧ vals s' = [1, 2, 3, 4] ∧ s'.root.owned = [1, 2] ∧ res = .unwound .alloc) := by decide
-- Replacing and not replacing.
example : (match two.insert id true 3 ⟨9, [], [], []⟩ 3 with | (e', s', res) => e'.cloned = [3, 4] ∧ vals s' = [1, 2, 3, 4] ∧ res = .done (some 3)) := by decide
example : (match two.insert id false 3 ⟨9, [], [], []⟩ 3 with | (e', s', res) => e'.cloned = [] ∧ e'.left = 7 ∧ vals s' = [1, 2, 3, 4] ∧ res = .done (some 3)) := by decide
-- The hypotheses of `C74_done`, `C74_unwound_partial` and `C74_valid_partial` hold of these.
example (e : Env Nat) : ∃ e' s' res, two.insert id true 3 e 5 = (e', s', res) ∧ Valid (id : Nat → Nat) 1 s' :=
  ⟨_, _, _, rfl, C74_valid_partial id 5 (Nat.le_refl 1) true valid_two rfl (fun h => nomatch h)⟩

end Verif.Props.BTreeUnwind
