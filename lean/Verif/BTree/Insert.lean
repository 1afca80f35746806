import Verif.BTree.Tree

/-! Insertion and queries on the trees of `BTree/Tree.lean`. -/
namespace Verif.BTree
variable {α κ : Type} [LinearOrder κ]

/-- Insertion into a sorted list: what it replaces, and the list. -/
def ins (key : α → κ) (v : α) : List α → Option α × List α
  | [] => (none, [v])
  | y :: ys =>
    if key y < key v then ((ins key v ys).1, y :: (ins key v ys).2)
    else if key y = key v then (some y, v :: ys)
    else (none, v :: y :: ys)

def Sorted (key : α → κ) (l : List α) : Prop := l.Pairwise fun x y => key x < key y

theorem ins_skip (key : α → κ) (v : α) (l1 l2 : List α) (h : ∀ x ∈ l1, key x < key v) :
    ins key v (l1 ++ l2) = ((ins key v l2).1, l1 ++ (ins key v l2).2) := by
  induction l1 with
  | nil => rfl
  | cons x l1 ih =>
    have := ih fun y hy => h y (by simp [hy])
    simp [ins, h x (by simp), this]

theorem ins_stop (key : α → κ) (v : α) (l r : List α) (y : α) (h : key v < key y) :
    ins key v (l ++ y :: r) = ((ins key v l).1, (ins key v l).2 ++ y :: r) := by
  induction l with
  | nil => simp [ins, not_lt_of_gt h, ne_of_gt h]
  | cons x l ih =>
    simp only [List.cons_append, ins, ih]
    split
    · rfl
    · split <;> rfl

theorem ins_hit (key : α → κ) (v : α) (r : List α) (y : α) (h : key y = key v) : ins key v (y :: r) = (some y, v :: r) := by
  simp [ins, h, lt_irrefl]

theorem Reps.all_lt {key : α → κ} {k : κ} {P : Option Addr → List α → Prop} {es : List (Entry α)} {l : List α} (h : Reps P es l)
    (hs : Sorted key l) (hk : ∀ e ∈ es, key e.value < k) : ∀ x ∈ l, key x < k := by
  induction h with
  | nil => simp
  | @cons e es l r hp _ ih =>
    intro x hx
    unfold Sorted at hs ih
    rw [List.pairwise_append] at hs
    obtain ⟨s1, s2, s3⟩ := hs
    rw [List.pairwise_cons] at s2
    have hek := hk e (by simp)
    rcases List.mem_append.mp hx with hx | hx
    · exact lt_trans (s3 x hx e.value (by simp)) hek
    · rcases List.mem_cons.mp hx with rfl | hx
      · exact hek
      · exact ih s2.2 (fun f hf => hk f (by simp [hf])) x hx

theorem scan_spec (key : α → κ) (k : κ) (es : List (Entry α)) (i : Nat) :
    match scan key k i es with
    | .past => ∀ e ∈ es, key e.value < k
    | .equal j e => ∃ es1 es2, es = es1 ++ e :: es2 ∧ j = i + es1.length ∧ (∀ f ∈ es1, key f.value < k) ∧ key e.value = k
    | .greater j e => ∃ es1 es2, es = es1 ++ e :: es2 ∧ j = i + es1.length ∧ (∀ f ∈ es1, key f.value < k) ∧ k < key e.value := by
  induction es generalizing i with
  | nil => simp [scan]
  | cons e es ih =>
    unfold scan
    by_cases h1 : key e.value < k
    · rw [if_pos h1]
      have := ih (i + 1)
      split at this
      · simp; exact ⟨h1, this⟩
      · obtain ⟨es1, es2, rfl, hj, ha, hb⟩ := this
        exact ⟨e :: es1, es2, rfl, by simp; omega, by simp; exact ⟨h1, ha⟩, hb⟩
      · obtain ⟨es1, es2, rfl, hj, ha, hb⟩ := this
        exact ⟨e :: es1, es2, rfl, by simp; omega, by simp; exact ⟨h1, ha⟩, hb⟩
    · rw [if_neg h1]
      by_cases h2 : key e.value = k
      · rw [if_pos h2]; exact ⟨[], es, rfl, by simp, by simp, h2⟩
      · rw [if_neg h2]; exact ⟨[], es, rfl, by simp, by simp, lt_of_le_of_ne (not_lt.mp h1) (Ne.symm h2)⟩

omit [LinearOrder κ] in
theorem Is.set {limit : Nat} {n : Inner α} {es1 es2 : List (Entry α)} {e : Entry α} (h : Is limit n (es1 ++ e :: es2)) (e' : Entry α) :
    Is limit { n with cells := n.cells.set es1.length (some e') } (es1 ++ e' :: es2) := by
  obtain ⟨rest, hc, hr⟩ := h.cells
  refine Is.mk' (rest := rest) ?_ (by simpa using hr) (by simpa using h.len)
  simp [hc]

theorem split_small {limit : Nat} {n : Inner α} {es : List (Entry α)} (hi : Is limit n es) (hl : es.length < limit) (h : Heap α) :
    split limit h n = some (h, n, .done none) := by
  have : n.len ≠ limit := by rw [hi.len]; omega
  simp [split, this]

theorem split_full {q : Nat} {n : Inner α} {es : List (Entry α)} (hi : Is (2 * q + 1) n es) (hl : es.length = 2 * q + 1) (h : Heap α) :
    ∃ esl p esr left right, es = esl ++ p :: esr ∧ esl.length = q ∧ esr.length = q ∧
      split (2 * q + 1) h n = some ((alloc h right).1, left, .split (alloc h right).2 p.value) ∧
      Is (2 * q + 1) left esl ∧ left.greater = p.smaller ∧ Is (2 * q + 1) right esr ∧ right.greater = n.greater := by
  obtain ⟨rest, hc, hr⟩ := hi.cells
  have hrest : rest = [] := List.length_eq_zero_iff.mp (by omega)
  subst hrest
  have h2 : (2 * q + 1) / 2 = q := by omega
  have hq : q < es.length := by omega
  refine ⟨es.take q, es[q], es.drop (q + 1), { n with greater := es[q].smaller, len := q },
    ⟨(es.drop (q + 1)).map some ++ List.replicate (q + 1) none, q, n.greater⟩, ?_, ?_, ?_, ?_, ?_, rfl, ?_, rfl⟩
  · rw [List.getElem_cons_drop, List.take_append_drop]
  · simp; omega
  · simp; omega
  · unfold split
    rw [if_pos (by rw [hi.len, hl]), h2, hc]
    have hm : (List.take q (List.drop (q + 1) (List.map some es ++ []))) = List.map some (es.drop (q + 1)) := by
      rw [List.append_nil, ← List.map_drop, List.take_of_length_le]; simp; omega
    simp only [hm]
    simp [hq, show 2 * q + 1 - q = q + 1 by omega, show es.length - (q + 1) = q by omega]
  · refine Is.mk' (rest := (es.drop q).map some) ?_ ?_ ?_
    · show n.cells = _
      rw [hc, List.append_nil, ← List.map_append, List.take_append_drop]
    · simp; omega
    · simp; omega
  · exact Is.mk' rfl (by simp; omega) (by simp; omega)

theorem insertAt_eq {limit : Nat} {n : Inner α} {es1 es2 : List (Entry α)} {e : Entry α} (hi : Is limit n (es1 ++ e :: es2))
    (hl : (es1 ++ e :: es2).length < limit) (h : Heap α) (v : α) (g : Option Addr) :
    ∃ n', insertAt limit h n es1.length v g = split limit h n' ∧ Is limit n' (es1 ++ ⟨e.smaller, v⟩ :: ⟨g, e.value⟩ :: es2) ∧ n'.greater = n.greater := by
  obtain ⟨rest, hc, hr⟩ := hi.cells
  have hlen := hi.len
  cases rest with
  | nil => simp at hr hl; omega
  | cons x rest =>
    simp only [List.length_append, List.length_cons] at hr hl hlen
    have hcells : n.cells.take (es1.length + 1) ++ (n.cells.drop es1.length).take (n.len - es1.length) ++ n.cells.drop (n.len + 1) =
        es1.map some ++ some e :: some e :: (es2.map some ++ rest) := by
      rw [hc, hlen]
      have e1 : List.map some (es1 ++ e :: es2) ++ x :: rest = (es1.map some ++ [some e]) ++ (es2.map some ++ x :: rest) := by simp
      have e2 : List.map some (es1 ++ e :: es2) ++ x :: rest = es1.map some ++ ((some e :: es2.map some) ++ (x :: rest)) := by simp
      have e3 : List.map some (es1 ++ e :: es2) ++ x :: rest = (es1.map some ++ (some e :: es2.map some) ++ [x]) ++ rest := by simp
      have t1 : (List.map some (es1 ++ e :: es2) ++ x :: rest).take (es1.length + 1) = es1.map some ++ [some e] := by
        rw [e1, List.take_left' (by simp)]
      have t2 : ((List.map some (es1 ++ e :: es2) ++ x :: rest).drop es1.length).take (es1.length + (es2.length + 1) - es1.length) = some e :: es2.map some := by
        rw [e2, List.drop_left' (by simp), List.take_left' (by simp)]
      have t3 : (List.map some (es1 ++ e :: es2) ++ x :: rest).drop (es1.length + (es2.length + 1) + 1) = rest := by
        rw [e3, List.drop_left' (by simp; omega)]
      rw [t1, t2, t3]
      simp
    refine ⟨{ n with cells := es1.map some ++ some ⟨e.smaller, v⟩ :: some ⟨g, e.value⟩ :: (es2.map some ++ rest), len := n.len + 1 }, ?_, ?_, rfl⟩
    · unfold insertAt
      rw [if_pos (by rw [hc, hlen]; simp; omega)]
      simp only [hcells]
      have : (List.map some es1 ++ some e :: some e :: (List.map some es2 ++ rest))[es1.length + 1]? = some (some e) := by
        rw [List.getElem?_append_right (by simp)]; simp
      rw [this]
      simp only [Option.join_some, Option.bind_eq_bind, Option.bind_some]
      congr 2
      simp
    · exact Is.mk' (rest := rest) (by simp) (by simp; omega) (by simp; omega)

theorem push_eq {limit : Nat} {n : Inner α} {es : List (Entry α)} (hi : Is limit n es) (hl : es.length < limit) (h : Heap α) (v : α) (g : Option Addr) :
    ∃ n', push limit h n v g = split limit h n' ∧ Is limit n' (es ++ [⟨n.greater, v⟩]) ∧ n'.greater = g := by
  obtain ⟨rest, hc, hr⟩ := hi.cells
  cases rest with
  | nil => simp at hr; omega
  | cons x rest =>
    simp only [List.length_cons] at hr
    refine ⟨⟨es.map some ++ some ⟨n.greater, v⟩ :: rest, n.len + 1, g⟩, ?_, Is.mk' (rest := rest) (by simp) (by simp; omega) (by simp [hi.len]), rfl⟩
    unfold push
    rw [if_pos (by rw [hc, hi.len]; simp), hc, hi.len]
    congr 2
    rw [List.set_append]
    simp

/-! ### `insert_inner` -/

def outHandles : Out α → List Addr
  | .split r _ => [r]
  | .done _ => []
def outVals : Out α → List α
  | .split _ p => [p]
  | .done x => x.toList

/-- What an insertion below a node gives: what it replaced, if anything, and the tree with these values. -/
def Post (limit : Nat) (h : Heap α) (m n : Nat) (a : Addr) (res : Option α × List α) : Out α → Prop
  | .done x => x = res.1 ∧ Rep limit h m n (some a) res.2
  | .split r p => res.1 = none ∧ ∃ l1 l2, res.2 = l1 ++ p :: l2 ∧ Rep limit h (limit / 2) n (some a) l1 ∧ Rep limit h (limit / 2) n (some r) l2

omit [LinearOrder κ] in
theorem wsum_append (w : α → Nat) (l r : List α) : wsum w (l ++ r) = wsum w l + wsum w r := by simp [wsum]

theorem putBack_spec {limit : Nat} {m n s : Nat} {h : Heap α} {a : Addr} {n2 : Inner α} {es : List (Entry α)} {R F : List Addr} {le lg : List α}
    (hc : h.cell a = some ⟨s, none⟩) (hi : Is limit n2 es) (hm : m ≤ es.length) (hlt : es.length < limit) (H : RC h R)
    (hp : ∀ b, R.count b = (eHandles es n2.greater).count b + F.count b)
    (he : Reps (Rep limit h (limit / 2) n) es le) (hg : Rep limit h (limit / 2) n n2.greater lg) :
    ∃ h', putBack h a n2 = some h' ∧ RC h' F ∧ Rep limit h' m (n + 1) (some a) (le ++ lg) ∧
      (∀ b x, h.look b = some x → h'.look b = some x) ∧ (∀ b, b ≠ a → h'.cell b = h.cell b) ∧ (∀ w, bal w h' = bal w h + wsum w (eVals es)) ∧
      (∀ T, AllRep limit h (a :: T) → AllRep limit h' T) := by
  have hl := cell_lt hc
  have hlook : ∀ b x, h.look b = some x → (h.set a (some ⟨s, some n2⟩)).look b = some x := by
    intro b x hb
    have : b ≠ a := by intro e; subst e; rw [look_of_cell hc] at hb; cases hb
    simp only [Heap.look, cell_set _ _ _ _ hl, if_neg this]
    exact hb
  have hrep : Rep limit (h.set a (some ⟨s, some n2⟩)) m (n + 1) (some a) (le ++ lg) := ?rep
  refine ⟨h.set a (some ⟨s, some n2⟩), by simp [putBack, hc], put_RC hc H (fun b => by rw [handles_eq hi]; exact hp b), hrep, hlook, fun b hb => by simp [cell_set _ _ _ _ hl, hb],
    fun w => by rw [put_bal w hc, vals_eq hi], fun T HT b c hb => ?_⟩
  · by_cases e : b = a
    · subst e; exact Or.inr ⟨_, _, _, hrep⟩
    · rw [cell_set _ _ _ _ hl, if_neg e] at hb
      rcases HT b c hb with h1 | ⟨m, n, l, h1⟩
      · rcases List.mem_cons.mp h1 with h1 | h1
        · exact absurd h1 e
        · exact Or.inl h1
      · exact Or.inr ⟨m, n, l, h1.look_mono hlook⟩
  exact ⟨a, n2, es, le, lg, rfl, by simp [Heap.look, cell_set _ _ _ _ hl], hi, hm, hlt, he.mono fun e _ l hl => hl.look_mono hlook, hg.look_mono hlook, rfl⟩

/-- The end of `insert_inner`: a node with one more entry, perhaps split. -/
theorem finish {q m n s : Nat} {h : Heap α} {a : Addr} {n2 : Inner α} {es : List (Entry α)} {R F : List Addr} {le lg : List α} (hq : 1 ≤ q)
    (hc : h.cell a = some ⟨s, none⟩) (hi : Is (2 * q + 1) n2 es) (hm : m ≤ es.length) (H : RC h R)
    (hp : ∀ b, R.count b = (eHandles es n2.greater).count b + (a :: F).count b)
    (he : Reps (Rep (2 * q + 1) h ((2 * q + 1) / 2) n) es le) (hg : Rep (2 * q + 1) h ((2 * q + 1) / 2) n n2.greater lg) :
    ∃ h' n' out h'', split (2 * q + 1) h n2 = some (h', n', out) ∧ putBack h' a n' = some h'' ∧ RC h'' (a :: (outHandles out ++ F)) ∧
      Post (2 * q + 1) h'' m (n + 1) a (none, le ++ lg) out ∧
      (∀ b x, h.look b = some x → h''.look b = some x) ∧ (∀ b c, b ≠ a → h.cell b = some c → h''.cell b = some c) ∧
      (∀ w, bal w h'' + wsum w (outVals out) = bal w h + wsum w (eVals es)) ∧ (∀ T, AllRep (2 * q + 1) h (a :: T) → AllRep (2 * q + 1) h'' T) := by
  by_cases hl : es.length < 2 * q + 1
  · obtain ⟨h'', p1, p2, p3, p4, p5, p6, p7⟩ := putBack_spec (m := m) hc hi hm hl H hp he hg
    exact ⟨h, n2, .done none, h'', split_small hi hl h, p1, p2, ⟨rfl, p3⟩, p4, fun b c hb hbc => by rw [p5 b hb, hbc], fun w => by rw [p6]; simp [outVals, wsum], p7⟩
  · have hl : es.length = 2 * q + 1 := by have := hi.le; omega
    obtain ⟨esl, p, esr, left, right, rfl, e1, e2, e3, e4, e5, e6, e7⟩ := split_full hi hl h
    obtain ⟨l1, l2, rfl, r1, r2⟩ := he.split
    obtain ⟨l3, l4, rfl, r3, r4⟩ := r2.cons_inv
    have hRp : ∀ b, R.count b = (handles right).count b + (eHandles esl p.smaller ++ a :: F).count b := by
      intro b
      rw [hp b, handles_eq e6, e7]
      cases hps : p.smaller <;> simp [eHandles, hps, List.count_append, List.count_cons] <;> omega
    obtain ⟨a1, a2, a3, a4⟩ := alloc_RC (n := right) H hRp
    have hlook : ∀ b x, h.look b = some x → (alloc h right).1.look b = some x := fun b x hb => alloc_look h right hb
    have hnew := alloc_look_new h right
    have hc' : (alloc h right).1.cell a = some ⟨s, none⟩ := alloc_cell_old h right hc
    have hdiv : (2 * q + 1) / 2 = q := by omega
    obtain ⟨h'', p1, p2, p3, p4, p5, p6, p7⟩ := putBack_spec (m := (2 * q + 1) / 2) (n := n) (le := l1) (lg := l3) (F := a :: (alloc h right).2 :: F) hc' e4
      (by omega) (by omega) a1 (fun b => by rw [e5]; simp [List.count_append, List.count_cons]; omega)
      (r1.mono fun e _ l hl => hl.look_mono hlook) (by rw [e5]; exact r3.look_mono hlook)
    have hright : Rep (2 * q + 1) h'' ((2 * q + 1) / 2) (n + 1) (some (alloc h right).2) (l4 ++ lg) := by
      refine ⟨_, right, esr, l4, lg, rfl, p4 _ _ hnew, e6, by omega, by omega, ?_, ?_, rfl⟩
      · exact r4.mono fun e _ l hl => hl.look_mono fun b x hb => p4 b x (hlook b x hb)
      · rw [e7]; exact hg.look_mono fun b x hb => p4 b x (hlook b x hb)
    refine ⟨_, _, _, h'', e3, p1, p2, ⟨rfl, l1 ++ l3, l4 ++ lg, by simp, p3, hright⟩, fun b x hb => p4 b x (hlook b x hb),
      fun b c hb hbc => by rw [p5 b hb]; exact alloc_cell_old h right hbc, fun w => ?_, fun T HT b c hb => ?_⟩
    · rw [p6, alloc_bal, vals_eq e6]
      simp [outVals, wsum, eVals]
      omega
    · by_cases e : b = (alloc h right).2
      · subst e; exact Or.inr ⟨_, _, _, hright⟩
      · refine p7 ((alloc h right).2 :: T) (fun b' c' hb' => ?_) b c hb |>.elim (fun h1 => ?_) Or.inr
        · rw [alloc_cell] at hb'
          split at hb'
          · left; rename_i e'; subst e'; simp [alloc]
          · rcases HT b' c' hb' with h1 | ⟨m, n, l, h1⟩
            · left
              rcases List.mem_cons.mp h1 with h1 | h1
              · simp [h1]
              · simp [h1]
            · exact Or.inr ⟨m, n, l, h1.look_mono hlook⟩
        · rcases List.mem_cons.mp h1 with h1 | h1
          · exact absurd h1 e
          · exact Or.inl h1

/-- `Frame`, and every node stays the root of a tree. -/
structure FrameA (limit : Nat) (h h' : Heap α) (F : List Addr) : Prop extends Frame limit h h' F where
  all : ∀ T, AllRep limit h T → AllRep limit h' T

theorem Frame.refl {limit : Nat} (h : Heap α) (F : List Addr) : FrameA limit h h F :=
  ⟨⟨fun _ _ _ _ _ hl => hl, fun b _ c c' hb hn hb' => by rw [hb] at hb'; cases hb'; exact hn⟩, fun _ h => h⟩

theorem frame_compose {limit : Nat} {h h1 h2 h3 : Heap α} {a : Addr} {n1 : Inner α} {es : List (Entry α)} {F X R : List Addr}
    (M : Made limit h h1 a n1 es F) (F2 : FrameA limit h1 h2 X) (hX : ∀ b ∈ F, b ∈ X) (rc2 : RC h2 R) (hR : ∀ b ∈ F, b ∈ R)
    (hlook : ∀ b x, h2.look b = some x → h3.look b = some x) (hcell : ∀ b c, b ≠ a → h2.cell b = some c → h3.cell b = some c)
    (hall : ∀ T, AllRep limit h2 (a :: T) → AllRep limit h3 T) : FrameA limit h h3 F := by
  refine ⟨⟨fun b hb m n l hl => ((F2.reps b (hX b hb) _ _ _ (M.frame.reps b hb _ _ _ hl))).look_mono hlook, fun b hb c c' hc hn hc' => ?_⟩, fun T HT => hall T (F2.all _ (M.all T HT))⟩
  have hne : b ≠ a := by intro e; subst e; exact M.old c hc hn
  obtain ⟨c1, hc1⟩ := M.rc.live (a := b) (by simp [hb])
  obtain ⟨c2, hc2⟩ := rc2.live (hR b hb)
  have t1 := M.frame.taken b hb c c1 hc hn hc1
  have t2 := F2.taken b (hX b hb) c1 c2 hc1 t1 hc2
  rw [hcell b c2 hne hc2] at hc'
  cases hc'
  exact t2

theorem insertInner_succ (key : α → κ) (limit fuel : Nat) (h : Heap α) (a : Addr) (v : α) : insertInner key limit (fuel + 1) h a v = (do
    let (h, a, n) ← makeMut limit (fuel + 1) h a
    let es ← entries n
    match scan key (key v) 0 es with
    | .equal i e =>
      let h ← putBack h a { n with cells := n.cells.set i (some { e with value := v }) }
      return (h, a, .done (some e.value))
    | .greater i e =>
      match e.smaller with
      | some s =>
        let (h, s, out) ← insertInner key limit fuel h s v
        let n := { n with cells := n.cells.set i (some { e with smaller := some s }) }
        match out with
        | .done x => return (← putBack h a n, a, .done x)
        | .split right pivot =>
          let (h, n, out) ← insertAt limit h n i pivot (some right)
          return (← putBack h a n, a, out)
      | none =>
        let (h, n, out) ← insertAt limit h n i v none
        return (← putBack h a n, a, out)
    | .past =>
      match n.greater with
      | some g =>
        let (h, g, out) ← insertInner key limit fuel h g v
        let n := { n with greater := some g }
        match out with
        | .done x => return (← putBack h a n, a, .done x)
        | .split right pivot =>
          let (h, n, out) ← push limit h n pivot (some right)
          return (← putBack h a n, a, out)
      | none =>
        let (h, n, out) ← push limit h n v none
        return (← putBack h a n, a, out)) := rfl

theorem insertInner_spec (key : α → κ) {q : Nat} (hq : 1 ≤ q) (n : Nat) : ∀ (fuel m : Nat) (h : Heap α) (a : Addr) (F : List Addr) (l : List α) (v : α), n + 1 ≤ fuel →
    RC h (a :: F) → Rep (2 * q + 1) h m (n + 1) (some a) l → Sorted key l →
    ∃ h' a' out, insertInner key (2 * q + 1) fuel h a v = some (h', a', out) ∧ RC h' (a' :: (outHandles out ++ F)) ∧ FrameA (2 * q + 1) h h' F ∧
      Post (2 * q + 1) h' m (n + 1) a' (ins key v l) out ∧ ∀ w, bal w h' + wsum w (outVals out) = bal w h + w v := by
  induction n using Nat.strongRecOn with
  | ind n ih =>
  intro fuel m h a F l v hf H hr hsort
  obtain ⟨fuel, rfl⟩ : ∃ f, fuel = f + 1 := ⟨fuel - 1, by omega⟩
  obtain ⟨h1, a1, n1, es, le, lg, mk, M, hm, hlt, E, G, rfl⟩ := makeMut_spec hf H hr
  obtain ⟨s1, hs1⟩ := M.cell
  have hrc := M.rc
  rw [handles_eq M.is] at hrc
  have hsort' := List.pairwise_append.mp hsort
  obtain ⟨so1, so2, so3⟩ := hsort'
  have hsc := scan_spec key (key v) es 0
  rw [insertInner_succ, mk]
  simp only [Option.bind_eq_bind, Option.bind_some, entries_eq M.is]
  cases hscan : scan key (key v) 0 es with
  | past =>
    rw [hscan] at hsc
    have hall := E.all_lt so1 hsc
    rw [ins_skip key v le lg hall]
    cases hg : n1.greater with
    | none =>
      rw [hg] at G
      obtain ⟨rfl, rfl⟩ := G.of_none
      obtain ⟨n2, p1, p2, p3⟩ := push_eq M.is hlt h1 v none
      rw [hg] at p2
      obtain ⟨h2, n3, out, h3, f1, f2, f3, f4, f5, f6, f7, f8⟩ := finish (m := m) (n := 0) (le := le ++ ([] ++ v :: [])) (lg := []) (F := F) hq hs1 p2 (by simp; omega) hrc
        (fun b => by rw [p3]; simp [eHandles, hg, List.count_append, List.count_cons]; omega) (E.append (.cons ⟨rfl, rfl⟩ .nil)) (by rw [p3]; exact ⟨rfl, rfl⟩)
      refine ⟨h3, a1, out, ?_, f3, frame_compose M (Frame.refl h1 F) (fun _ h => h) M.rc (fun b hb => by simp [hb]) f5 f6 f8, ?_, fun w => ?_⟩
      · simp only [p1, f1, Option.bind_some, f2]; rfl
      · simpa [ins] using f4
      · rw [f7, M.bal]; simp [wsum, eVals]; omega
    | some g =>
      rw [hg] at G
      obtain ⟨n', _, _, _, _, rfl, _⟩ := G.of_some
      have hrc' : RC h1 (g :: (a1 :: (es.filterMap (·.smaller) ++ F))) := hrc.perm fun b => by
        simp [eHandles, hg, List.count_append, List.count_cons]; omega
      obtain ⟨h2, g', out, i1, i2, i3, i4, i5⟩ := ih n' (by omega) fuel _ h1 g _ lg v (by omega) hrc' G so2
      have E2 : Reps (Rep (2 * q + 1) h2 ((2 * q + 1) / 2) (n' + 1)) es le := E.mono fun e he l hl => by
        cases hes : e.smaller with
        | none => rw [hes] at hl; exact absurd hl.of_none.1 (by omega)
        | some b => rw [hes] at hl; exact i3.reps b (by simp; exact Or.inr (Or.inl ⟨e, he, hes⟩)) _ _ _ hl
      obtain ⟨c2, hc2⟩ := i2.live (a := a1) (by simp)
      have ht2 := i3.taken a1 (by simp) _ _ hs1 rfl hc2
      obtain ⟨s2, i⟩ := c2
      simp at ht2
      subst ht2
      simp only [i1, Option.bind_some]
      cases out with
      | done x =>
        obtain ⟨j1, j2⟩ := i4
        obtain ⟨h3, f1, f2, f3, f4, f5, f6, f7⟩ := putBack_spec (m := m) (n := n' + 1) (n2 := { n1 with greater := some g' }) (F := a1 :: F) hc2
          ⟨M.is.size, M.is.len, M.is.data⟩ hm hlt i2 (fun b => by simp [eHandles, outHandles, List.count_append, List.count_cons]; omega) E2 j2
        refine ⟨h3, a1, .done x, by simp only [f1, Option.bind_some]; rfl, f2, frame_compose M i3 (fun b hb => by simp [hb]) i2 (fun b hb => by simp [hb]) f4 (fun b c hb hbc => by rw [f5 b hb, hbc]) f7,
          ⟨j1, f3⟩, fun w => ?_⟩
        have := i5 w
        have := M.bal w
        have := f6 w
        simp only [outVals] at *
        omega
      | split r p =>
        obtain ⟨j1, l1, l2, j2, j3, j4⟩ := i4
        obtain ⟨n2, p1, p2, p3⟩ := push_eq (n := { n1 with greater := some g' }) ⟨M.is.size, M.is.len, M.is.data⟩ hlt h2 p (some r)
        obtain ⟨h3, n3, out, h4, f1, f2, f3, f4, f5, f6, f7, f8⟩ := finish (m := m) (n := n' + 1) (le := le ++ (l1 ++ p :: [])) (lg := l2) (F := F) hq hc2 p2 (by simp; omega) i2
          (fun b => by rw [p3]; simp [eHandles, outHandles, List.count_append, List.count_cons]; omega) (E2.append (.cons j3 .nil)) (by rw [p3]; exact j4)
        refine ⟨h4, a1, out, ?_, f3, frame_compose M i3 (fun b hb => by simp [hb]) i2 (fun b hb => by simp [hb]) f5 f6 f8, ?_, fun w => ?_⟩
        · simp only [p1, f1, Option.bind_some, f2]; rfl
        · rw [j1, j2]; simpa using f4
        · have e1 := i5 w
          have e2 := M.bal w
          have e3 := f7 w
          simp [outVals, wsum, eVals] at e1 e2 e3 ⊢
          omega
  | equal i e =>
    rw [hscan] at hsc
    obtain ⟨es1, es2, rfl, rfl, hlt1, heq⟩ := hsc
    obtain ⟨l1, l2, rfl, E1, E2⟩ := E.split
    obtain ⟨lc, l3, rfl, E3, E4⟩ := E2.cons_inv
    have hall : ∀ x ∈ l1 ++ lc, key x < key v := by
      intro x hx
      rcases List.mem_append.mp hx with hx | hx
      · exact E1.all_lt (List.pairwise_append.mp so1).1 hlt1 x hx
      · have := (List.pairwise_append.mp (List.pairwise_append.mp so1).2.1).2.2 x hx e.value (by simp)
        rw [heq] at this; exact this
    obtain ⟨h3, f1, f2, f3, f4, f5, f6, f7⟩ := putBack_spec (m := m) (n := n) (F := a1 :: F) (lg := lg) hs1 (M.is.set { e with value := v }) (by simpa using hm) (by simpa using hlt) hrc
      (fun b => by simp [eHandles, List.filterMap_append, List.filterMap_cons, List.count_append, List.count_cons]; omega) (E1.append (.cons E3 E4)) G
    refine ⟨h3, a1, .done (some e.value), ?_, f2, frame_compose M (Frame.refl h1 F) (fun _ h => h) M.rc (fun b hb => by simp [hb]) f4 (fun b c hb hbc => by rw [f5 b hb, hbc]) f7, ?_, fun w => ?_⟩
    · simp only [Nat.zero_add, f1, Option.bind_some]; rfl
    · have e1 : l1 ++ (lc ++ e.value :: l3) ++ lg = (l1 ++ lc) ++ e.value :: (l3 ++ lg) := by simp
      rw [e1, ins_skip key v _ _ hall, ins_hit key v _ _ heq]
      refine ⟨rfl, ?_⟩
      simpa using f3
    · have e2 := M.bal w
      have e3 := f6 w
      simp [outVals, wsum, eVals] at e2 e3 ⊢
      omega
  | greater i e =>
    rw [hscan] at hsc
    obtain ⟨es1, es2, rfl, rfl, hlt1, hgt⟩ := hsc
    obtain ⟨l1, l2, rfl, E1, E2⟩ := E.split
    obtain ⟨lc, l3, rfl, E3, E4⟩ := E2.cons_inv
    have hall := E1.all_lt (List.pairwise_append.mp so1).1 hlt1
    have sc : Sorted key lc := (List.pairwise_append.mp (List.pairwise_append.mp so1).2.1).1
    have hins : ins key v (l1 ++ (lc ++ e.value :: l3) ++ lg) = ((ins key v lc).1, l1 ++ ((ins key v lc).2 ++ e.value :: l3) ++ lg) := by
      have e1 : l1 ++ (lc ++ e.value :: l3) ++ lg = l1 ++ (lc ++ e.value :: (l3 ++ lg)) := by simp
      rw [e1, ins_skip key v _ _ hall, ins_stop key v _ _ _ hgt]
      simp
    rw [hins]
    simp only [Nat.zero_add]
    cases hes : e.smaller with
    | none =>
      rw [hes] at E3
      obtain ⟨rfl, rfl⟩ := E3.of_none
      obtain ⟨n2, p1, p2, p3⟩ := insertAt_eq M.is hlt h1 v none
      rw [hes] at p2
      obtain ⟨h2, n3, out, h3, f1, f2, f3, f4, f5, f6, f7, f8⟩ := finish (m := m) (n := 0) (le := l1 ++ ([] ++ v :: ([] ++ e.value :: l3))) (lg := lg) (F := F) hq hs1 p2
        (by simp at hm ⊢; omega) hrc
        (fun b => by rw [p3]; simp [eHandles, hes, List.count_append, List.count_cons]; omega)
        (E1.append (.cons ⟨rfl, rfl⟩ (.cons (e := ⟨none, e.value⟩) ⟨rfl, rfl⟩ E4))) (by rw [p3]; exact G)
      refine ⟨h3, a1, out, ?_, f3, frame_compose M (Frame.refl h1 F) (fun _ h => h) M.rc (fun b hb => by simp [hb]) f5 f6 f8, ?_, fun w => ?_⟩
      · simp only [p1, f1, Option.bind_some, f2]; rfl
      · simpa [ins] using f4
      · have e2 := M.bal w
        have e3 := f7 w
        simp [outVals, wsum, eVals] at e2 e3 ⊢
        omega
    | some c =>
      rw [hes] at E3
      obtain ⟨n', _, _, _, _, rfl, _⟩ := E3.of_some
      have hrc' : RC h1 (c :: (a1 :: (eHandles (es1 ++ es2) n1.greater ++ F))) := hrc.perm fun b => by
        simp [eHandles, hes, List.count_append, List.count_cons]; omega
      obtain ⟨h2, c', out, i1, i2, i3, i4, i5⟩ := ih n' (by omega) fuel _ h1 c _ lc v (by omega) hrc' E3 sc
      have keep : ∀ o l, (∀ b, o = some b → b ∈ eHandles (es1 ++ es2) n1.greater) → Rep (2 * q + 1) h1 ((2 * q + 1) / 2) (n' + 1) o l →
          Rep (2 * q + 1) h2 ((2 * q + 1) / 2) (n' + 1) o l := by
        intro o l ho hl
        cases o with
        | none => exact absurd hl.of_none.1 (by omega)
        | some b => exact i3.reps b (by have := ho b rfl; simp [this]) _ _ _ hl
      have K1 := E1.mono (Q := Rep (2 * q + 1) h2 ((2 * q + 1) / 2) (n' + 1)) fun f hf l hl => keep _ _ (fun b hb => by simp [eHandles]; exact Or.inl ⟨f, hf, hb⟩) hl
      have K4 := E4.mono (Q := Rep (2 * q + 1) h2 ((2 * q + 1) / 2) (n' + 1)) fun f hf l hl => keep _ _ (fun b hb => by simp [eHandles]; exact Or.inr (Or.inl ⟨f, hf, hb⟩)) hl
      have KG := keep _ _ (fun b hb => by simp [eHandles, hb]) G
      obtain ⟨c2, hc2⟩ := i2.live (a := a1) (by simp)
      have ht2 := i3.taken a1 (by simp) _ _ hs1 rfl hc2
      obtain ⟨s2, i⟩ := c2
      simp at ht2
      subst ht2
      simp only [i1, Option.bind_some]
      have hset := M.is.set { e with smaller := some c' }
      cases out with
      | done x =>
        obtain ⟨j1, j2⟩ := i4
        obtain ⟨h3, f1, f2, f3, f4, f5, f6, f7⟩ := putBack_spec (m := m) (n := n' + 1) (F := a1 :: F) hc2
          hset (by simpa using hm) (by simpa using hlt) i2 (fun b => by simp [eHandles, outHandles, List.count_append, List.count_cons]; omega)
          (K1.append (.cons (e := { e with smaller := some c' }) j2 K4)) KG
        refine ⟨h3, a1, .done x, by simp only [f1, Option.bind_some]; rfl, f2, frame_compose M i3 (fun b hb => by simp [hb]) i2 (fun b hb => by simp [hb]) f4 (fun b c hb hbc => by rw [f5 b hb, hbc]) f7,
          ⟨j1, f3⟩, fun w => ?_⟩
        have e1 := i5 w
        have e2 := M.bal w
        have e3 := f6 w
        simp [outVals, wsum, eVals] at e1 e2 e3 ⊢
        omega
      | split r p =>
        obtain ⟨j1, l4, l5, j2, j3, j4⟩ := i4
        obtain ⟨n2, p1, p2, p3⟩ := insertAt_eq hset (by simpa using hlt) h2 p (some r)
        obtain ⟨h3, n3, out, h4, f1, f2, f3, f4, f5, f6, f7, f8⟩ := finish (m := m) (n := n' + 1) (le := l1 ++ (l4 ++ p :: (l5 ++ e.value :: l3))) (lg := lg) (F := F) hq hc2 p2
          (by simp at hm ⊢; omega) i2
          (fun b => by rw [p3]; simp [eHandles, outHandles, List.count_append, List.count_cons]; omega)
          (K1.append (.cons (e := ⟨some c', p⟩) j3 (.cons (e := ⟨some r, e.value⟩) j4 K4))) (by rw [p3]; exact KG)
        refine ⟨h4, a1, out, ?_, f3, frame_compose M i3 (fun b hb => by simp [hb]) i2 (fun b hb => by simp [hb]) f5 f6 f8, ?_, fun w => ?_⟩
        · simp only [p1, f1, Option.bind_some, f2]; rfl
        · rw [j1, j2]; simpa using f4
        · have e1 := i5 w
          have e2 := M.bal w
          have e3 := f7 w
          simp [outVals, wsum, eVals] at e1 e2 e3 ⊢
          omega

end Verif.BTree
