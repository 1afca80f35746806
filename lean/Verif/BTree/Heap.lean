import Verif.BTree.Model

/-! Reference counts of the heap of `BTree/Model.lean`. -/
namespace Verif.BTree
variable {α κ : Type}

/-! ### Contents of nodes -/

/-- The node has these entries. -/
structure Is (limit : Nat) (n : Inner α) (es : List (Entry α)) : Prop where
  size : n.cells.length = limit
  len : n.len = es.length
  data : n.cells.take es.length = es.map some

theorem Is.le {limit : Nat} {n : Inner α} {es : List (Entry α)} (h : Is limit n es) : es.length ≤ limit := by
  have := congrArg List.length h.data
  simp only [List.length_take, List.length_map, h.size] at this
  omega

theorem mapM_some (es : List (Entry α)) : (es.map some).mapM (m := Option) id = some es := by
  induction es with
  | nil => rfl
  | cons e es ih => simp [List.mapM_cons] at ih ⊢; simp [ih]

theorem entries_eq {limit : Nat} {n : Inner α} {es : List (Entry α)} (h : Is limit n es) : entries n = some es := by
  have h1 := h.le
  unfold entries
  rw [if_pos (by rw [h.size, h.len]; exact h1), h.len, h.data, mapM_some]

theorem Is.cells {limit : Nat} {n : Inner α} {es : List (Entry α)} (h : Is limit n es) :
    ∃ rest, n.cells = es.map some ++ rest ∧ rest.length + es.length = limit := by
  refine ⟨n.cells.drop es.length, ?_, ?_⟩
  · rw [← h.data, List.take_append_drop]
  · have := h.le; rw [List.length_drop, h.size]; omega

theorem Is.mk' {limit : Nat} {n : Inner α} {es : List (Entry α)} {rest} (hc : n.cells = es.map some ++ rest)
    (hr : rest.length + es.length = limit) (hl : n.len = es.length) : Is limit n es := by
  refine ⟨?_, hl, ?_⟩
  · rw [hc]; simp; omega
  · rw [hc]; simp

/-- Handles in entries and in `greater`. -/
def eHandles (es : List (Entry α)) (g : Option Addr) : List Addr := es.filterMap (·.smaller) ++ g.toList
def wsum (w : α → Nat) (l : List α) : Nat := (l.map w).sum
def eVals (es : List (Entry α)) : List α := es.map (·.value)

def live (n : Inner α) : List (Entry α) := (n.cells.take n.len).filterMap id
def handles (n : Inner α) : List Addr := eHandles (live n) n.greater
def vals (n : Inner α) : List α := eVals (live n)

theorem live_eq {limit : Nat} {n : Inner α} {es : List (Entry α)} (h : Is limit n es) : live n = es := by
  unfold live
  rw [h.len, h.data, List.filterMap_map]
  simp

theorem handles_eq {limit : Nat} {n : Inner α} {es : List (Entry α)} (h : Is limit n es) : handles n = eHandles es n.greater := by
  rw [handles, live_eq h]
theorem vals_eq {limit : Nat} {n : Inner α} {es : List (Entry α)} (h : Is limit n es) : vals n = eVals es := by
  rw [vals, live_eq h]

/-! ### Heaps -/

def cellHandles : Option (Cell α) → List Addr
  | some ⟨_, some n⟩ => handles n
  | _ => []
def cellVals : Option (Cell α) → List α
  | some ⟨_, some n⟩ => vals n
  | _ => []

/-- Handles to `b` within nodes. -/
def refsTo (h : Heap α) (b : Addr) : Nat := (h.cells.map fun c => (cellHandles c).count b).sum
/-- Weight of the values within nodes. -/
def held (w : α → Nat) (h : Heap α) : Nat := (h.cells.map fun c => wsum w (cellVals c)).sum

def strongOf (h : Heap α) (a : Addr) : Nat :=
  match h.cell a with
  | none => 0
  | some c => c.strong

/-- Counters are exact, given the handles outside of the heap. -/
structure RC (h : Heap α) (R : List Addr) : Prop where
  count : ∀ a, strongOf h a = refsTo h a + R.count a
  pos : ∀ a c, h.cell a = some c → 1 ≤ c.strong

/-- Balance of values: those in nodes, plus those dropped, minus those cloned. -/
def bal (w : α → Nat) (h : Heap α) : Int := held w h + wsum w h.dropped - wsum w h.cloned

theorem sum_set {β : Type} (g : β → Nat) (l : List β) (i : Nat) (x y : β) (h : l[i]? = some y) :
    ((l.set i x).map g).sum + g y = (l.map g).sum + g x := by
  induction l generalizing i with
  | nil => simp at h
  | cons z l ih =>
    cases i with
    | zero => simp at h; subst h; simp; omega
    | succ i => simp only [List.getElem?_cons_succ] at h; have := ih i h; simp only [List.set_cons_succ, List.map_cons, List.sum_cons]; omega

theorem cell_get {h : Heap α} {a : Addr} {c : Cell α} (hc : h.cell a = some c) : h.cells[a]? = some (some c) := by
  unfold Heap.cell at hc
  cases hx : h.cells[a]? with
  | none => rw [hx] at hc; simp at hc
  | some y => rw [hx] at hc; simp at hc; rw [hc]

theorem cell_lt {h : Heap α} {a : Addr} {c : Cell α} (hc : h.cell a = some c) : a < h.cells.length := by
  have := cell_get hc
  exact (List.getElem?_eq_some_iff.mp this).1

theorem cell_set (h : Heap α) (a b : Addr) (x : Option (Cell α)) (ha : a < h.cells.length) :
    (h.set a x).cell b = if b = a then x else h.cell b := by
  unfold Heap.cell Heap.set
  simp only [List.getElem?_set]
  by_cases e : b = a
  · subst e; simp [ha]
  · simp [e, Ne.symm e]

theorem refsTo_set {h : Heap α} {a : Addr} {c : Cell α} (hc : h.cell a = some c) (x : Option (Cell α)) (b : Addr) :
    refsTo (h.set a x) b + (cellHandles (some c)).count b = refsTo h b + (cellHandles x).count b :=
  sum_set (fun c => (cellHandles c).count b) h.cells a x (some c) (cell_get hc)

theorem held_set {h : Heap α} {a : Addr} {c : Cell α} (w : α → Nat) (hc : h.cell a = some c) (x : Option (Cell α)) :
    held w (h.set a x) + wsum w (cellVals (some c)) = held w h + wsum w (cellVals x) :=
  sum_set (fun c => wsum w (cellVals c)) h.cells a x (some c) (cell_get hc)

theorem strongOf_set (h : Heap α) (a b : Addr) (x : Option (Cell α)) (ha : a < h.cells.length) :
    strongOf (h.set a x) b = if b = a then (match x with | none => 0 | some c => c.strong) else strongOf h b := by
  unfold strongOf
  rw [cell_set h a b x ha]
  by_cases e : b = a <;> simp [e]

theorem live_of_strong {h : Heap α} {a : Addr} (hs : strongOf h a ≠ 0) : ∃ c, h.cell a = some c := by
  unfold strongOf at hs
  cases hc : h.cell a with
  | none => rw [hc] at hs; simp at hs
  | some c => exact ⟨c, rfl⟩

theorem strongOf_cell {h : Heap α} {a : Addr} {c : Cell α} (hc : h.cell a = some c) : strongOf h a = c.strong := by
  unfold strongOf; rw [hc]

theorem RC.perm {h : Heap α} {R R' : List Addr} (H : RC h R) (hp : ∀ a, R.count a = R'.count a) : RC h R' :=
  ⟨fun a => by rw [H.count a, hp a], H.pos⟩

theorem RC.live {h : Heap α} {R : List Addr} (H : RC h R) {a : Addr} (ha : a ∈ R) : ∃ c, h.cell a = some c := by
  apply live_of_strong
  have := H.count a
  have := List.count_pos_iff.mpr ha
  omega

theorem mem_sum_pos {β : Type} (g : β → Nat) (l : List β) : 0 < (l.map g).sum ↔ ∃ x ∈ l, 0 < g x := by
  induction l with
  | nil => simp
  | cons y l ih => simp only [List.map_cons, List.sum_cons, List.mem_cons]; grind

theorem refsTo_pos {h : Heap α} {b : Addr} : 0 < refsTo h b ↔ ∃ a n, h.look a = some n ∧ b ∈ handles n := by
  unfold refsTo
  rw [mem_sum_pos]
  constructor
  · rintro ⟨x, hx, hp⟩
    have hm := List.count_pos_iff.mp hp
    obtain ⟨i, hi⟩ := List.getElem?_of_mem hx
    match x, hm, hi with
    | some ⟨s, some n⟩, hm, hi => exact ⟨i, n, by simp [Heap.look, Heap.cell, hi], hm⟩
    | some ⟨s, none⟩, hm, hi => simp [cellHandles] at hm
    | none, hm, hi => simp [cellHandles] at hm
  · rintro ⟨a, n, hl, hb⟩
    unfold Heap.look at hl
    cases hc : h.cell a with
    | none => rw [hc] at hl; simp at hl
    | some c =>
      rw [hc] at hl
      simp at hl
      refine ⟨some c, List.mem_of_getElem? (cell_get hc), List.count_pos_iff.mpr ?_⟩
      obtain ⟨s, i⟩ := c
      subst hl
      exact hb

theorem look_cell {h : Heap α} {a : Addr} {n : Inner α} (hl : h.look a = some n) : ∃ s, h.cell a = some ⟨s, some n⟩ := by
  unfold Heap.look at hl
  cases hc : h.cell a with
  | none => rw [hc] at hl; simp at hl
  | some c => rw [hc] at hl; obtain ⟨s, i⟩ := c; simp at hl; subst hl; exact ⟨s, rfl⟩

theorem look_of_cell {h : Heap α} {a : Addr} {c : Cell α} (hc : h.cell a = some c) : h.look a = c.inner := by
  simp [Heap.look, hc]

theorem RC.child_live {h : Heap α} {R : List Addr} (H : RC h R) {a b : Addr} {n : Inner α} (hl : h.look a = some n) (hb : b ∈ handles n) :
    strongOf h b ≠ 0 := by
  have := H.count b
  have := refsTo_pos.mpr ⟨a, n, hl, hb⟩
  omega

theorem cell_append (h : Heap α) (x : Option (Cell α)) (a : Addr) :
    ({ h with cells := h.cells ++ [x] } : Heap α).cell a = if a = h.cells.length then x else h.cell a := by
  unfold Heap.cell
  simp only [List.getElem?_append]
  by_cases e : a = h.cells.length
  · simp [e]
  · by_cases e' : a < h.cells.length
    · simp [e, e']
    · have : h.cells[a]? = none := List.getElem?_eq_none (by omega)
      rw [this]
      have : a - h.cells.length ≠ 0 := by omega
      simp [e, e']
      cases hk : a - h.cells.length with
      | zero => omega
      | succ k => simp

/-! ### Allocation -/

theorem alloc_cell (h : Heap α) (n : Inner α) (a : Addr) :
    (alloc h n).1.cell a = if a = h.cells.length then some ⟨1, some n⟩ else h.cell a := cell_append h _ a

theorem fresh_strong (h : Heap α) : strongOf h h.cells.length = 0 := by
  unfold strongOf Heap.cell
  simp

theorem alloc_RC {h : Heap α} {n : Inner α} {R F : List Addr} (H : RC h R) (hp : ∀ a, R.count a = (handles n).count a + F.count a) :
    RC (alloc h n).1 ((alloc h n).2 :: F) ∧ refsTo (alloc h n).1 (alloc h n).2 = 0 ∧ (alloc h n).2 ∉ F ∧ strongOf h (alloc h n).2 = 0 := by
  have hr : ∀ b, refsTo (alloc h n).1 b = refsTo h b + (handles n).count b := by
    intro b; simp [refsTo, alloc, cellHandles]
  have hf := fresh_strong h
  have hz := H.count h.cells.length
  rw [hf, hp] at hz
  refine ⟨⟨fun a => ?_, fun a c hc => ?_⟩, ?_, ?_, hf⟩
  · unfold strongOf
    rw [alloc_cell, hr]
    by_cases e : a = h.cells.length
    · subst e; simp [alloc]; omega
    · have := H.count a
      rw [hp] at this
      simp only [e, if_false]
      unfold strongOf at this
      rw [this]
      have : List.count a ((alloc h n).2 :: F) = List.count a F := by
        rw [List.count_cons_of_ne]; exact fun e' => e e'.symm
      omega
  · rw [alloc_cell] at hc
    split at hc
    · cases hc; simp
    · exact H.pos a c hc
  · rw [hr]; simp [alloc]; omega
  · intro hm
    have := List.count_pos_iff.mpr hm
    simp only [alloc] at this
    omega

theorem alloc_bal (w : α → Nat) (h : Heap α) (n : Inner α) : bal w (alloc h n).1 = bal w h + wsum w (vals n) := by
  simp [bal, alloc, held, cellVals]; omega

theorem alloc_look (h : Heap α) (n : Inner α) {b : Addr} {x : Inner α} (hb : h.look b = some x) : (alloc h n).1.look b = some x := by
  obtain ⟨s, hc⟩ := look_cell hb
  have := cell_lt hc
  simp only [Heap.look, alloc_cell]
  rw [if_neg (by omega), hc]; rfl

theorem alloc_cell_old (h : Heap α) (n : Inner α) {b : Addr} {c : Cell α} (hb : h.cell b = some c) : (alloc h n).1.cell b = some c := by
  have := cell_lt hb
  rw [alloc_cell, if_neg (by omega), hb]

theorem alloc_look_new (h : Heap α) (n : Inner α) : (alloc h n).1.look (alloc h n).2 = some n := by
  simp [Heap.look, alloc, Heap.cell]

/-! ### Clones -/

theorem incr_spec {h : Heap α} {R : List Addr} {a : Addr} (H : RC h R) (ha : strongOf h a ≠ 0) :
    ∃ h', incr h a = some h' ∧ RC h' (a :: R) ∧ (∀ b, h'.look b = h.look b) ∧ (∀ w, bal w h' = bal w h) ∧ h'.dropped = h.dropped ∧
      h'.cloned = h.cloned ∧ (∀ b, strongOf h' b = strongOf h b + [a].count b) ∧ h'.cells.length = h.cells.length := by
  obtain ⟨c, hc⟩ := live_of_strong ha
  have hlt := cell_lt hc
  refine ⟨h.set a (some { c with strong := c.strong + 1 }), by simp [incr, hc], ⟨fun b => ?_, fun b d hd => ?_⟩, fun b => ?_, fun w => ?_, rfl, rfl, fun b => ?_, ?_⟩
  · have h1 := refsTo_set hc (some { c with strong := c.strong + 1 }) b
    have h2 : cellHandles (some { c with strong := c.strong + 1 }) = cellHandles (some c) := by cases c with | mk s i => cases i <;> rfl
    rw [h2] at h1
    have h3 := H.count b
    rw [strongOf_set _ _ _ _ hlt]
    by_cases e : b = a
    · subst e
      rw [strongOf_cell hc] at h3
      simp; omega
    · simp only [e, if_false]
      rw [List.count_cons_of_ne (fun x => e x.symm)]
      omega
  · rw [cell_set _ _ _ _ hlt] at hd
    split at hd
    · cases hd; simp
    · exact H.pos b d hd
  · simp only [Heap.look, cell_set _ _ _ _ hlt]
    by_cases e : b = a
    · subst e; simp [hc]
    · simp [e]
  · have h1 := held_set w hc (some { c with strong := c.strong + 1 })
    have h2 : cellVals (some { c with strong := c.strong + 1 }) = cellVals (some c) := by cases c with | mk s i => cases i <;> rfl
    rw [h2] at h1
    simp only [bal, Heap.set] at h1 ⊢
    omega
  · rw [strongOf_set _ _ _ _ hlt]
    by_cases e : b = a
    · subst e; simp [strongOf_cell hc]
    · simp [e, List.count_cons_of_ne (fun x => e x.symm)]
  · simp [Heap.set]

theorem incrOpt_spec {h : Heap α} {R : List Addr} {o : Option Addr} (H : RC h R) (ha : ∀ a, o = some a → strongOf h a ≠ 0) :
    ∃ h', incrOpt h o = some h' ∧ RC h' (o.toList ++ R) ∧ (∀ b, h'.look b = h.look b) ∧ (∀ w, bal w h' = bal w h) ∧ h'.dropped = h.dropped ∧
      h'.cloned = h.cloned ∧ (∀ b, strongOf h b ≤ strongOf h' b) ∧ h'.cells.length = h.cells.length ∧ (∀ b, strongOf h b = 0 → strongOf h' b = 0) := by
  cases o with
  | none => exact ⟨h, rfl, H, fun _ => rfl, fun _ => rfl, rfl, rfl, fun _ => Nat.le_refl _, rfl, fun _ h => h⟩
  | some a =>
    obtain ⟨h', h1, h2, h3, h4, h5, h6, h7, h8⟩ := incr_spec H (ha a rfl)
    exact ⟨h', h1, h2, h3, h4, h5, h6, fun b => by rw [h7]; omega, h8, fun b hb => by
      rw [h7, hb, Nat.zero_add, List.count_eq_zero]; intro hm; have e := List.mem_singleton.mp hm; rw [e] at hb; exact ha a rfl hb⟩

theorem RC.ledger {h : Heap α} {R : List Addr} (H : RC h R) (d c : List α) : RC { h with dropped := d, cloned := c } R := ⟨H.count, H.pos⟩

theorem cloneEntries_spec (es : List (Entry α)) {h : Heap α} {R : List Addr} (H : RC h R)
    (hl : ∀ e ∈ es, ∀ a, e.smaller = some a → strongOf h a ≠ 0) :
    ∃ h', es.foldlM cloneEntry h = some h' ∧ RC h' (es.filterMap (·.smaller) ++ R) ∧ (∀ b, h'.look b = h.look b) ∧
      (∀ w, bal w h' = bal w h - wsum w (eVals es)) ∧ (∀ b, strongOf h b ≤ strongOf h' b) ∧ h'.cells.length = h.cells.length ∧
      (∀ b, strongOf h b = 0 → strongOf h' b = 0) := by
  induction es generalizing h R with
  | nil => exact ⟨h, rfl, H, fun _ => rfl, fun w => by simp [wsum, eVals], fun _ => Nat.le_refl _, rfl, fun _ h => h⟩
  | cons e es ih =>
    have H' : RC { h with cloned := h.cloned ++ [e.value] } R := H.ledger _ _
    obtain ⟨h1, a1, a2, a3, a4, a5, a6, a7, a8, a9⟩ := incrOpt_spec (o := e.smaller) H' (fun a ea => hl e (by simp) a ea)
    obtain ⟨h2, b1, b2, b3, b4, b5, b6, b7⟩ := ih a2 (fun f hf a ea => by
      have := hl f (by simp [hf]) a ea
      have h' := a7 a
      have : strongOf { h with cloned := h.cloned ++ [e.value] } a = strongOf h a := rfl
      omega)
    refine ⟨h2, ?_, ?_, fun b => by rw [b3, a3]; rfl, fun w => ?_, fun b => Nat.le_trans (a7 b) (b5 b), by rw [b6, a8], fun b hb => b7 b (a9 b hb)⟩
    · simp only [List.foldlM_cons, cloneEntry, a1]; exact b1
    · refine b2.perm fun a => ?_
      cases he : e.smaller with
      | none => simp [he]
      | some s => simp [he, List.count_cons]; omega
    · rw [b4, a4]
      simp [bal, held, wsum, eVals]; omega

/-! ### Ownership moves -/

/-- Contents of a node whose only handle is at hand are taken out. -/
theorem take_RC {h : Heap α} {a : Addr} {n : Inner α} {s : Nat} {F : List Addr} (hc : h.cell a = some ⟨s, some n⟩) (H : RC h (a :: F)) :
    RC (h.set a (some ⟨s, none⟩)) (a :: (handles n ++ F)) := by
  have hlt := cell_lt hc
  refine ⟨fun b => ?_, fun b c hb => ?_⟩
  · have h1 := refsTo_set hc (some ⟨s, none⟩) b
    have h2 := H.count b
    have h3 : (cellHandles (some (⟨s, some n⟩ : Cell α))) = handles n := rfl
    have h4 : (cellHandles (some (⟨s, none⟩ : Cell α))) = [] := rfl
    rw [h3, h4] at h1
    have h5 : strongOf (h.set a (some ⟨s, none⟩)) b = strongOf h b := by
      rw [strongOf_set _ _ _ _ hlt]
      by_cases e : b = a
      · subst e; simp [strongOf_cell hc]
      · simp [e]
    rw [h5, h2]
    simp only [List.count_cons, List.count_append, List.count_nil] at *
    omega
  · rw [cell_set _ _ _ _ hlt] at hb
    split at hb
    · cases hb; have := H.pos _ _ hc; exact this
    · exact H.pos _ _ hb

/-- Contents are put back. -/
theorem put_RC {h : Heap α} {a : Addr} {n : Inner α} {s : Nat} {F : List Addr} (hc : h.cell a = some ⟨s, none⟩) {R : List Addr} (H : RC h R)
    (hp : ∀ b, R.count b = (handles n).count b + F.count b) :
    RC (h.set a (some ⟨s, some n⟩)) F := by
  have hlt := cell_lt hc
  refine ⟨fun b => ?_, fun b c hb => ?_⟩
  · have h1 := refsTo_set hc (some ⟨s, some n⟩) b
    have h2 := H.count b
    have h3 : (cellHandles (some (⟨s, some n⟩ : Cell α))) = handles n := rfl
    have h4 : (cellHandles (some (⟨s, none⟩ : Cell α))) = [] := rfl
    rw [h3, h4] at h1
    have h5 : strongOf (h.set a (some ⟨s, some n⟩)) b = strongOf h b := by
      rw [strongOf_set _ _ _ _ hlt]
      by_cases e : b = a
      · subst e; simp [strongOf_cell hc]
      · simp [e]
    rw [h5, h2]
    have := hp b
    simp only [List.count_nil] at *
    omega
  · rw [cell_set _ _ _ _ hlt] at hb
    split at hb
    · cases hb; have := H.pos _ _ hc; exact this
    · exact H.pos _ _ hb

theorem take_bal (w : α → Nat) {h : Heap α} {a : Addr} {n : Inner α} {s : Nat} (hc : h.cell a = some ⟨s, some n⟩) :
    bal w (h.set a (some ⟨s, none⟩)) = bal w h - wsum w (vals n) := by
  have h1 := held_set w hc (some ⟨s, none⟩)
  have h3 : (cellVals (some (⟨s, some n⟩ : Cell α))) = vals n := rfl
  have h4 : (cellVals (some (⟨s, none⟩ : Cell α))) = [] := rfl
  rw [h3, h4] at h1
  simp [bal, Heap.set, wsum] at h1 ⊢
  omega

theorem put_bal (w : α → Nat) {h : Heap α} {a : Addr} {n : Inner α} {s : Nat} (hc : h.cell a = some ⟨s, none⟩) :
    bal w (h.set a (some ⟨s, some n⟩)) = bal w h + wsum w (vals n) := by
  have h1 := held_set w hc (some ⟨s, some n⟩)
  have h3 : (cellVals (some (⟨s, some n⟩ : Cell α))) = vals n := rfl
  have h4 : (cellVals (some (⟨s, none⟩ : Cell α))) = [] := rfl
  rw [h3, h4] at h1
  simp [bal, Heap.set, wsum] at h1 ⊢
  omega

end Verif.BTree
