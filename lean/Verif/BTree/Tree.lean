import Verif.BTree.Heap

/-! Trees in the heap of `BTree/Model.lean`: representation, frame lemmas, drop and `make_mut`. -/
namespace Verif.BTree
variable {α κ : Type}

/-- A row of entries, each with the values of its subtree in front of its own. -/
inductive Reps (P : Option Addr → List α → Prop) : List (Entry α) → List α → Prop where
  | nil : Reps P [] []
  | cons {e : Entry α} {es : List (Entry α)} {l r : List α} : P e.smaller l → Reps P es r → Reps P (e :: es) (l ++ e.value :: r)

theorem Reps.append {P : Option Addr → List α → Prop} {es1 es2 : List (Entry α)} {l1 l2 : List α} (h1 : Reps P es1 l1) (h2 : Reps P es2 l2) :
    Reps P (es1 ++ es2) (l1 ++ l2) := by
  induction h1 with
  | nil => exact h2
  | cons hp _ ih => simpa using Reps.cons hp ih

theorem Reps.split {P : Option Addr → List α → Prop} {es1 es2 : List (Entry α)} {l : List α} (h : Reps P (es1 ++ es2) l) :
    ∃ l1 l2, l = l1 ++ l2 ∧ Reps P es1 l1 ∧ Reps P es2 l2 := by
  induction es1 generalizing l with
  | nil => exact ⟨[], l, rfl, .nil, h⟩
  | cons e es1 ih =>
    cases h with
    | cons hp hr =>
      obtain ⟨l1, l2, rfl, h1, h2⟩ := ih hr
      exact ⟨_, l2, by simp, .cons hp h1, h2⟩

theorem Reps.cons_inv {P : Option Addr → List α → Prop} {e : Entry α} {es : List (Entry α)} {l : List α} (h : Reps P (e :: es) l) :
    ∃ l1 l2, l = l1 ++ e.value :: l2 ∧ P e.smaller l1 ∧ Reps P es l2 := by
  cases h with
  | cons hp hr => exact ⟨_, _, rfl, hp, hr⟩

theorem Reps.mono {P Q : Option Addr → List α → Prop} {es : List (Entry α)} {l : List α} (h : Reps P es l)
    (hpq : ∀ e ∈ es, ∀ l, P e.smaller l → Q e.smaller l) : Reps Q es l := by
  induction h with
  | nil => exact .nil
  | cons hp _ ih => exact .cons (hpq _ (by simp) _ hp) (ih fun e he => hpq e (by simp [he]))

/-- The pointer is the root of a tree of height `n` with these values in order; its root has at least `m` entries, its other nodes at
least half of what fits. -/
def Rep (limit : Nat) (h : Heap α) : Nat → Nat → Option Addr → List α → Prop
  | _, 0, o, l => o = none ∧ l = []
  | m, n + 1, o, l => ∃ a inner es le lg, o = some a ∧ h.look a = some inner ∧ Is limit inner es ∧ m ≤ es.length ∧ es.length < limit ∧
      Reps (Rep limit h (limit / 2) n) es le ∧ Rep limit h (limit / 2) n inner.greater lg ∧ l = le ++ lg

theorem Rep.of_some {limit : Nat} {h : Heap α} {m n : Nat} {a : Addr} {l : List α} (H : Rep limit h m n (some a) l) :
    ∃ n' inner es le lg, n = n' + 1 ∧ h.look a = some inner ∧ Is limit inner es ∧ m ≤ es.length ∧ es.length < limit ∧
      Reps (Rep limit h (limit / 2) n') es le ∧ Rep limit h (limit / 2) n' inner.greater lg ∧ l = le ++ lg := by
  cases n with
  | zero => simp [Rep] at H
  | succ n =>
    obtain ⟨a', inner, es, le, lg, e, h1, h2, h3, h4, h5, h6, h7⟩ := H
    cases e
    exact ⟨n, inner, es, le, lg, rfl, h1, h2, h3, h4, h5, h6, h7⟩

theorem Rep.of_none {limit : Nat} {h : Heap α} {m n : Nat} {l : List α} (H : Rep limit h m n none l) : n = 0 ∧ l = [] := by
  cases n with
  | zero => exact ⟨rfl, H.2⟩
  | succ n => obtain ⟨a', _, _, _, _, e, _⟩ := H; cases e

theorem smaller_mem {limit : Nat} {n : Inner α} {es : List (Entry α)} (hi : Is limit n es) {e : Entry α} (he : e ∈ es) {b : Addr}
    (hb : e.smaller = some b) : b ∈ handles n := by
  rw [handles_eq hi, eHandles]
  exact List.mem_append_left _ (List.mem_filterMap.mpr ⟨e, he, hb⟩)

theorem greater_mem {limit : Nat} {n : Inner α} {es : List (Entry α)} (hi : Is limit n es) {b : Addr} (hb : n.greater = some b) : b ∈ handles n := by
  rw [handles_eq hi, eHandles, hb]
  simp

/-- A tree is not affected by changes of nodes it does not reach: `S` is closed under going to children, and the nodes in `S` keep their contents. -/
theorem Rep.frame {limit : Nat} {h h' : Heap α} (S : Addr → Prop) (hs : ∀ a n, S a → h.look a = some n → h'.look a = some n ∧ ∀ b ∈ handles n, S b)
    {m n : Nat} {o : Option Addr} {l : List α} (ho : ∀ a, o = some a → S a) (H : Rep limit h m n o l) : Rep limit h' m n o l := by
  induction n generalizing m o l with
  | zero => exact H
  | succ n ih =>
    obtain ⟨a, inner, es, le, lg, e, h1, h2, h3, h4, h5, h6, h7⟩ := H
    obtain ⟨k1, k2⟩ := hs a inner (ho a e) h1
    refine ⟨a, inner, es, le, lg, e, k1, h2, h3, h4, h5.mono fun f hf l hl => ih (fun b hb => k2 b (smaller_mem h2 hf hb)) hl,
      ih (fun b hb => k2 b (greater_mem h2 hb)) h6, h7⟩

theorem Rep.look_mono {limit : Nat} {h h' : Heap α} (hs : ∀ a n, h.look a = some n → h'.look a = some n) {m n : Nat} {o : Option Addr} {l : List α}
    (H : Rep limit h m n o l) : Rep limit h' m n o l :=
  H.frame (fun _ => True) (fun a n _ ha => ⟨hs a n ha, fun _ _ => trivial⟩) (fun _ _ => trivial)

theorem Rep.set_unref {limit : Nat} {h : Heap α} {a : Addr} {c : Cell α} (hc : h.cell a = some c) (hr : refsTo h a = 0) (x : Option (Cell α))
    {m n : Nat} {o : Option Addr} {l : List α} (ho : o ≠ some a) (H : Rep limit h m n o l) : Rep limit (h.set a x) m n o l := by
  refine H.frame (fun b => b ≠ a) (fun b n hb hl => ⟨?_, fun d hd e => ?_⟩) (fun b hb e => ho (by rw [hb, e]))
  · simp only [Heap.look, cell_set _ _ _ _ (cell_lt hc), if_neg hb]; exact hl
  · subst e
    have := refsTo_pos.mpr ⟨b, n, hl, hd⟩
    omega

/-- Nodes disappear, the others keep their contents. -/
def Shrinks (h h' : Heap α) : Prop := ∀ b c', h'.cell b = some c' → ∃ c, h.cell b = some c ∧ c.inner = c'.inner

theorem Shrinks.refl (h : Heap α) : Shrinks h h := fun _ c hc => ⟨c, hc, rfl⟩
theorem Shrinks.trans {h h' h'' : Heap α} (a : Shrinks h h') (b : Shrinks h' h'') : Shrinks h h'' := by
  intro x c'' hc
  obtain ⟨c', h1, h2⟩ := b x c'' hc
  obtain ⟨c, h3, h4⟩ := a x c' h1
  exact ⟨c, h3, h4.trans h2⟩

theorem Shrinks.look {h h' : Heap α} (hs : Shrinks h h') {a : Addr} {n : Inner α} (hl : h.look a = some n) (ha : strongOf h' a ≠ 0) :
    h'.look a = some n := by
  obtain ⟨c', hc'⟩ := live_of_strong ha
  obtain ⟨c, hc, he⟩ := hs a c' hc'
  rw [look_of_cell hc] at hl
  rw [look_of_cell hc', ← he, hl]

theorem Shrinks.look_back {h h' : Heap α} (hs : Shrinks h h') {a : Addr} {n : Inner α} (hl : h'.look a = some n) : h.look a = some n := by
  obtain ⟨s, hc'⟩ := look_cell hl
  obtain ⟨c, hc, he⟩ := hs a _ hc'
  rw [look_of_cell hc, he]

theorem Rep.shrink {limit : Nat} {h h' : Heap α} (hs : Shrinks h h') {R : List Addr} (hr : RC h' R) {m n : Nat} {o : Option Addr} {l : List α}
    (ho : ∀ a, o = some a → strongOf h' a ≠ 0) (H : Rep limit h m n o l) : Rep limit h' m n o l :=
  H.frame (fun b => strongOf h' b ≠ 0) (fun b n hb hl => ⟨hs.look hl hb, fun d hd => hr.child_live (hs.look hl hb) hd⟩) ho

/-! ### Drop -/

/-- What a drop of the handle `a` does. -/
structure Dropped (h h' : Heap α) (F : List Addr) : Prop where
  rc : RC h' F
  shrinks : Shrinks h h'
  bal : ∀ w, bal w h' = bal w h

theorem dropped_step {h : Heap α} {a : Addr} {c : Cell α} {F : List Addr} (hc : h.cell a = some c) (H : RC h (a :: F)) (hs : c.strong ≠ 1) :
    Dropped h (h.set a (some { c with strong := c.strong - 1 })) F := by
  have hlt := cell_lt hc
  have hpos := H.pos a c hc
  have h2 : ∀ s, cellHandles (some { c with strong := s }) = cellHandles (some c) := by intro s; cases c with | mk s i => cases i <;> rfl
  have h2' : ∀ s, cellVals (some { c with strong := s }) = cellVals (some c) := by intro s; cases c with | mk s i => cases i <;> rfl
  refine ⟨⟨fun b => ?_, fun b d hd => ?_⟩, fun b d hd => ?_, fun w => ?_⟩
  · have h1 := refsTo_set hc (some { c with strong := c.strong - 1 }) b
    rw [h2 (c.strong - 1)] at h1
    have h3 := H.count b
    rw [strongOf_set _ _ _ _ hlt]
    by_cases e : b = a
    · subst e
      rw [strongOf_cell hc] at h3
      simp at h3 ⊢; omega
    · simp only [e, if_false]
      rw [List.count_cons_of_ne (fun x => e x.symm)] at h3
      omega
  · rw [cell_set _ _ _ _ hlt] at hd
    split at hd
    · cases hd; simp; omega
    · exact H.pos b d hd
  · rw [cell_set _ _ _ _ hlt] at hd
    split at hd
    · next e => cases hd; subst e; exact ⟨c, hc, rfl⟩
    · exact ⟨d, hd, rfl⟩
  · have h1 := held_set w hc (some { c with strong := c.strong - 1 })
    rw [h2' (c.strong - 1)] at h1
    simp only [Verif.BTree.bal, Heap.set] at h1 ⊢
    omega

/-- The loop of `dropArc` over the entries. -/
def dropEntry (fuel : Nat) (h : Heap α) (e : Entry α) : Option (Heap α) := do
  let h ← match e.smaller with
    | none => some h
    | some s => dropArc fuel h s
  return { h with dropped := h.dropped ++ [e.value] }

theorem dropArc_succ (fuel : Nat) (h : Heap α) (a : Addr) : dropArc (fuel + 1) h a = (do
    let c ← h.cell a
    if c.strong ≠ 1 then return h.set a (some { c with strong := c.strong - 1 })
    let n ← c.inner
    let es ← entries n
    let h ← es.foldlM (dropEntry fuel) (h.set a none)
    match n.greater with
    | none => return h
    | some g => dropArc fuel h g) := rfl

theorem dropArc_spec {limit : Nat} (n : Nat) : ∀ (fuel : Nat) {m : Nat} {h : Heap α} {a : Addr} {F : List Addr} {l : List α}, n ≤ fuel →
    RC h (a :: F) → Rep limit h m n (some a) l → ∃ h', dropArc fuel h a = some h' ∧ Dropped h h' F := by
  induction n with
  | zero => intro fuel m h a F l _ _ hr; simp [Rep] at hr
  | succ n ih =>
    intro fuel m h a F l hf H hr
    obtain ⟨fuel, rfl⟩ : ∃ f, fuel = f + 1 := ⟨fuel - 1, by omega⟩
    obtain ⟨n', inner, es, le, lg, hn, hl, hi, h3, h4, h5, h6, h7⟩ := hr.of_some
    cases hn
    obtain ⟨s, hc⟩ := look_cell hl
    by_cases hs : s ≠ 1
    · exact ⟨_, by simp [dropArc_succ, hc, hs], dropped_step hc H hs⟩
    have hs : s = 1 := by omega
    subst hs
    have hlt := cell_lt hc
    have hcount := H.count a
    rw [strongOf_cell hc] at hcount
    simp only [List.count_cons_self] at hcount
    have hunref : refsTo h a = 0 := by omega
    have hnotin : ∀ b ∈ handles inner, b ≠ a := by
      intro b hb e
      subst e
      have := refsTo_pos.mpr ⟨_, inner, hl, hb⟩
      omega
    -- the heap without the dying node
    have H0 : RC (h.set a none) (eHandles es inner.greater ++ F) := by
      refine ⟨fun b => ?_, fun b d hd => ?_⟩
      · have h1 := refsTo_set hc none b
        have e1 : (cellHandles (some (⟨1, some inner⟩ : Cell α))) = eHandles es inner.greater := handles_eq hi
        have e2 : (cellHandles (none : Option (Cell α))) = [] := rfl
        rw [e1, e2] at h1
        have h2 := H.count b
        rw [strongOf_set _ _ _ _ hlt]
        by_cases e : b = a
        · subst e
          have : (eHandles es inner.greater).count b = 0 := by
            rw [← handles_eq hi]; exact List.count_eq_zero.mpr fun hb => hnotin b hb rfl
          simp only [List.count_append, List.count_nil, if_true] at *
          omega
        · rw [List.count_cons_of_ne (fun x => e x.symm)] at h2
          simp only [List.count_append, List.count_nil, e, if_false] at *
          omega
      · rw [cell_set _ _ _ _ hlt] at hd
        split at hd
        · cases hd
        · exact H.pos b d hd
    have S0 : Shrinks h (h.set a none) := by
      intro b d hd
      rw [cell_set _ _ _ _ hlt] at hd
      split at hd
      · cases hd
      · exact ⟨d, hd, rfl⟩
    have B0 : ∀ w, bal w (h.set a none) = bal w h - wsum w (eVals es) := by
      intro w
      have h1 := held_set w hc none
      have e1 : (cellVals (some (⟨1, some inner⟩ : Cell α))) = eVals es := vals_eq hi
      have e2 : (cellVals (none : Option (Cell α))) = [] := rfl
      rw [e1, e2] at h1
      simp [Verif.BTree.bal, Heap.set, wsum] at h1 ⊢
      omega
    have R0 : ∀ o, (∀ b, o = some b → b ∈ handles inner) → ∀ l, Rep limit h (limit / 2) n o l → Rep limit (h.set a none) (limit / 2) n o l := by
      intro o ho l hl
      exact hl.set_unref hc hunref none (fun e => hnotin a (ho a e) rfl)
    have E0 : Reps (Rep limit (h.set a none) (limit / 2) n) es le :=
      h5.mono fun e he l hl => R0 _ (fun b hb => smaller_mem hi he hb) _ hl
    have G0 : Rep limit (h.set a none) (limit / 2) n inner.greater lg := R0 _ (fun b hb => greater_mem hi hb) _ h6
    -- the loop
    have loop : ∀ (es : List (Entry α)) (le : List α) (k : Heap α), RC k (eHandles es inner.greater ++ F) → Reps (Rep limit k (limit / 2) n) es le →
        Rep limit k (limit / 2) n inner.greater lg →
        ∃ k', es.foldlM (dropEntry fuel) k = some k' ∧ RC k' (eHandles ([] : List (Entry α)) inner.greater ++ F) ∧ Shrinks k k' ∧ (∀ w, bal w k' = bal w k + wsum w (eVals es)) ∧
          Rep limit k' (limit / 2) n inner.greater lg := by
      intro es
      induction es with
      | nil => intro le k h1 h2 h3; exact ⟨k, rfl, h1, Shrinks.refl _, fun w => by simp [wsum, eVals], h3⟩
      | cons e es ihl =>
        intro le k K1 K2 K3
        obtain ⟨l1, l2, rfl, K4, K5⟩ := K2.cons_inv
        have step : ∃ k1, (match e.smaller with | none => some k | some s => dropArc fuel k s) = some k1 ∧
            RC k1 (eHandles es inner.greater ++ F) ∧ Shrinks k k1 ∧ ∀ w, bal w k1 = bal w k := by
          cases he : e.smaller with
          | none =>
            refine ⟨k, rfl, K1.perm fun b => ?_, Shrinks.refl _, fun _ => rfl⟩
            simp [eHandles, he]
          | some b =>
            rw [he] at K4
            have K1' : RC k (b :: (eHandles es inner.greater ++ F)) := K1.perm fun b => by simp [eHandles, he]
            obtain ⟨k1, d1, d2⟩ := ih fuel (by omega) K1' K4
            exact ⟨k1, d1, d2.rc, d2.shrinks, d2.bal⟩
        obtain ⟨k1, s1, s2, s3, s4⟩ := step
        have alive : ∀ b, b ∈ eHandles es inner.greater → strongOf k1 b ≠ 0 := by
          intro b hb
          have := s2.count b
          have := List.count_pos_iff.mpr (List.mem_append_left F hb)
          omega
        have alive' : ∀ f ∈ es, ∀ b, f.smaller = some b → b ∈ eHandles es inner.greater := fun f hf b hb =>
          List.mem_append_left _ (List.mem_filterMap.mpr ⟨f, hf, hb⟩)
        have alive'' : ∀ b, inner.greater = some b → b ∈ eHandles es inner.greater := fun b hb => by simp [eHandles, hb]
        obtain ⟨k2, t1, t2, t3, t4, t5⟩ := ihl l2 { k1 with dropped := k1.dropped ++ [e.value] } (s2.ledger _ _)
          (K5.mono fun f hf l hl => Rep.shrink (h' := { k1 with dropped := k1.dropped ++ [e.value] }) s3 (s2.ledger _ _) (fun b hb => alive b (alive' f hf b hb)) hl)
          (Rep.shrink (h' := { k1 with dropped := k1.dropped ++ [e.value] }) s3 (s2.ledger _ _) (fun b hb => alive b (alive'' b hb)) K3)
        refine ⟨k2, ?_, t2, s3.trans t3, fun w => ?_, t5⟩
        · rw [List.foldlM_cons]
          have hd : dropEntry fuel k e = some { k1 with dropped := k1.dropped ++ [e.value] } := by
            unfold dropEntry
            cases he : e.smaller with
            | none => rw [he] at s1; cases s1; rfl
            | some b => rw [he] at s1; simp only [s1]; rfl
          rw [hd]; exact t1
        · rw [t4]
          have := s4 w
          simp [Verif.BTree.bal, held, wsum, eVals] at this ⊢
          omega
    obtain ⟨k, l1, l2, l3, l4, l5⟩ := loop es le _ H0 E0 G0
    have head : dropArc (fuel + 1) h a = (match inner.greater with | none => some k | some g => dropArc fuel k g) := by
      rw [dropArc_succ]
      simp [hc, entries_eq hi, l1]
    cases hg : inner.greater with
    | none =>
      refine ⟨k, by rw [head, hg], l2.perm fun b => by simp [eHandles, hg], S0.trans l3, fun w => ?_⟩
      rw [l4, B0]; omega
    | some g =>
      rw [hg] at l5
      have l2' : RC k (g :: F) := l2.perm fun b => by simp [eHandles, hg]
      obtain ⟨k', d1, d2⟩ := ih fuel (by omega) l2' l5
      refine ⟨k', by rw [head, hg]; exact d1, d2.rc, (S0.trans l3).trans d2.shrinks, fun w => ?_⟩
      rw [d2.bal, l4, B0]; omega

/-! ### Copy on write -/

/-- What changes of the tree at one handle guarantee to the rest: trees of other handles stay, borrowed nodes stay borrowed. -/
structure Frame (limit : Nat) (h h' : Heap α) (F : List Addr) : Prop where
  reps : ∀ b ∈ F, ∀ m n l, Rep limit h m n (some b) l → Rep limit h' m n (some b) l
  taken : ∀ b ∈ F, ∀ c c', h.cell b = some c → c.inner = none → h'.cell b = some c' → c'.inner = none

/-- Every node except for the borrowed ones `T` is the root of a tree. -/
def AllRep (limit : Nat) (h : Heap α) (T : List Addr) : Prop := ∀ a c, h.cell a = some c → a ∈ T ∨ ∃ m n l, Rep limit h m n (some a) l

theorem AllRep.look_mono {limit : Nat} {h h' : Heap α} {T : List Addr} (H : AllRep limit h T) (hs : ∀ a n, h.look a = some n → h'.look a = some n)
    (hc : ∀ a c, h'.cell a = some c → a ∈ T ∨ (∃ c, h.cell a = some c) ∨ ∃ m n l, Rep limit h' m n (some a) l) : AllRep limit h' T := by
  intro a c ha
  rcases hc a c ha with h1 | ⟨c', h1⟩ | h1
  · exact Or.inl h1
  · rcases H a c' h1 with h2 | ⟨m, n, l, h2⟩
    · exact Or.inl h2
    · exact Or.inr ⟨m, n, l, h2.look_mono hs⟩
  · exact Or.inr h1

theorem AllRep.shrink {limit : Nat} {h h' : Heap α} {F T : List Addr} (H : AllRep limit h T) (hd : Dropped h h' F) : AllRep limit h' T := by
  intro a c ha
  obtain ⟨c', h1, _⟩ := hd.shrinks a c ha
  rcases H a c' h1 with h2 | ⟨m, n, l, h2⟩
  · exact Or.inl h2
  · refine Or.inr ⟨m, n, l, h2.shrink hd.shrinks hd.rc fun b hb => ?_⟩
    cases hb
    rw [strongOf_cell ha]
    have := hd.rc.pos _ _ ha
    omega

/-- `make_mut`: the contents are at hand, whoever else uses the node keeps it. -/
structure Made (limit : Nat) (h h' : Heap α) (a' : Addr) (n' : Inner α) (es : List (Entry α)) (F : List Addr) : Prop where
  cell : ∃ s, h'.cell a' = some ⟨s, none⟩
  old : ∀ c, h.cell a' = some c → c.inner ≠ none
  is : Is limit n' es
  rc : RC h' (a' :: (handles n' ++ F))
  frame : Frame limit h h' F
  bal : ∀ w, bal w h' = bal w h - wsum w (eVals es)
  all : ∀ T, AllRep limit h T → AllRep limit h' (a' :: T)

theorem makeMut_spec {limit : Nat} {n m fuel : Nat} {h : Heap α} {a : Addr} {F : List Addr} {l : List α} (hf : n + 1 ≤ fuel)
    (H : RC h (a :: F)) (hr : Rep limit h m (n + 1) (some a) l) :
    ∃ h' a' n' es le lg, makeMut limit fuel h a = some (h', a', n') ∧ Made limit h h' a' n' es F ∧ m ≤ es.length ∧ es.length < limit ∧
      Reps (Rep limit h' (limit / 2) n) es le ∧ Rep limit h' (limit / 2) n n'.greater lg ∧ l = le ++ lg := by
  obtain ⟨n', inner, es, le, lg, hn, hl, hi, h3, h4, h5, h6, h7⟩ := hr.of_some
  cases hn
  obtain ⟨s, hc⟩ := look_cell hl
  have hlt := cell_lt hc
  by_cases hs : s = 1
  · subst hs
    have hcount := H.count a
    rw [strongOf_cell hc] at hcount
    simp only [List.count_cons_self] at hcount
    have hunref : refsTo h a = 0 := by omega
    have hF : a ∉ F := fun hm => by have := List.count_pos_iff.mpr hm; omega
    have hnotin : ∀ b ∈ handles inner, b ≠ a := by
      intro b hb e
      subst e
      have := refsTo_pos.mpr ⟨_, inner, hl, hb⟩
      omega
    have R0 : ∀ o, (∀ b, o = some b → b ∈ handles inner) → ∀ l, Rep limit h (limit / 2) n o l → Rep limit (h.set a (some ⟨1, none⟩)) (limit / 2) n o l := by
      intro o ho l hl
      exact hl.set_unref hc hunref _ (fun e => hnotin a (ho a e) rfl)
    refine ⟨h.set a (some ⟨1, none⟩), a, inner, es, le, lg, by simp [makeMut, hc], ⟨⟨1, by simp [cell_set _ _ _ _ hlt]⟩, fun c hc' => by rw [hc] at hc'; cases hc'; simp,
      hi, take_RC hc H, ⟨fun b hb m n l hl => hl.set_unref hc hunref _ (fun e => hF (by cases e; exact hb)), fun b _ c c' hb hn hb' => ?_⟩, fun w => ?_, fun T HT b c hb => ?_⟩,
      h3, h4, h5.mono fun e he l hl => R0 _ (fun b hb => smaller_mem hi he hb) _ hl, R0 _ (fun b hb => greater_mem hi hb) _ h6, h7⟩
    · rw [cell_set _ _ _ _ hlt] at hb'
      split at hb'
      · cases hb'; rfl
      · rw [hb] at hb'; cases hb'; exact hn
    · rw [take_bal w hc, vals_eq hi]
    · rw [cell_set _ _ _ _ hlt] at hb
      split at hb
      · left; simp [*]
      · rename_i hne
        rcases HT b c hb with h1 | ⟨m, n, l, h1⟩
        · left; simp [h1]
        · exact Or.inr ⟨m, n, l, h1.set_unref hc hunref _ (fun e => hne (by cases e; rfl))⟩
  · -- shared: clone
    have hlive : ∀ b ∈ handles inner, strongOf h b ≠ 0 := fun b hb => H.child_live hl hb
    obtain ⟨h1, a1, a2, a3, a4, a5, a6, a7⟩ := cloneEntries_spec es H (fun e he b hb => hlive b (smaller_mem hi he hb))
    obtain ⟨h2, b1, b2, b3, b4, b5, b6, b7, b8, b9⟩ := incrOpt_spec (o := inner.greater) a2 (fun b hb => by
      have := hlive b (greater_mem hi hb)
      have := a5 b
      omega)
    let n' : Inner α := ⟨es.map some ++ List.replicate (limit - es.length) none, inner.len, inner.greater⟩
    have hi' : Is limit n' es := Is.mk' (rest := List.replicate (limit - es.length) none) rfl (by simp; omega) hi.len
    have hclone : cloneInner limit h inner = some (h2, n') := by
      simp only [cloneInner, entries_eq hi, Option.bind_eq_bind, Option.bind_some, a1, b1, if_pos hi.le]; rfl
    have b2' : RC h2 (handles n' ++ (a :: F)) := b2.perm fun b => by
      rw [handles_eq hi']; simp [eHandles, n', List.count_append]; omega
    obtain ⟨c1, c2, c3, c4⟩ := alloc_RC (n := n') (F := a :: F) b2' (fun b => by simp)
    have look2 : ∀ b, h2.look b = h.look b := fun b => by rw [b3, a3]
    have rep2 : ∀ m n o l, Rep limit h m n o l → Rep limit (alloc h2 n').1 m n o l := fun m n o l hl =>
      hl.look_mono fun b x hb => alloc_look _ _ (by rw [look2]; exact hb)
    have c1' : RC (alloc h2 n').1 (a :: ((alloc h2 n').2 :: F)) := c1.perm fun b => by simp [List.count_cons]; omega
    obtain ⟨h3', d1, d2⟩ := dropArc_spec (n + 1) fuel hf c1' (rep2 _ _ _ _ hr)
    have hb2 : (alloc h2 n').2 = h2.cells.length := rfl
    generalize hbn : (alloc h2 n').2 = bn at *
    have hnew : (alloc h2 n').1.look bn = some n' := by rw [← hbn]; exact alloc_look_new h2 n'
    have live3 : strongOf h3' bn ≠ 0 := by
      have := d2.rc.count bn
      simp at this; omega
    have look3 : h3'.look bn = some n' := d2.shrinks.look hnew live3
    have unref3 : refsTo h3' bn = 0 := by
      by_cases hz : 0 < refsTo h3' bn
      · obtain ⟨x, y, hx, hy⟩ := refsTo_pos.mp hz
        have := refsTo_pos.mpr ⟨x, y, d2.shrinks.look_back hx, hy⟩
        omega
      · omega
    obtain ⟨s3, cell3⟩ := look_cell look3
    have hF3 : bn ∉ F := fun hm => c3 (List.mem_cons_of_mem _ hm)
    have hs3 : s3 = 1 := by
      have := d2.rc.count bn
      rw [strongOf_cell cell3, unref3] at this
      simp [List.count_eq_zero.mpr hF3] at this
      exact this
    subst hs3
    have hlt3 := cell_lt cell3
    have hself : bn ∉ handles n' := by
      intro hm
      have := refsTo_pos.mpr ⟨bn, n', hnew, hm⟩
      omega
    have hne : ∀ b, strongOf h b ≠ 0 → b ≠ bn := by
      intro b hb e
      have h1 := a5 b
      have h2 := b7 b
      rw [e] at h2 h1 hb
      omega
    have rep3 : ∀ m n o l, (∀ b, o = some b → strongOf h b ≠ 0 ∧ strongOf h3' b ≠ 0) → Rep limit h m n o l → Rep limit (h3'.set bn (some ⟨1, none⟩)) m n o l := by
      intro m n o l ho hl
      have := (rep2 _ _ _ _ hl).shrink d2.shrinks d2.rc (fun b hb => (ho b hb).2)
      exact this.set_unref cell3 unref3 _ (fun e => hne bn (ho bn e).1 rfl)
    have alive3 : ∀ b ∈ handles n', strongOf h3' b ≠ 0 := fun b hb => d2.rc.child_live look3 hb
    have heq : handles n' = handles inner := by rw [handles_eq hi', handles_eq hi]
    have hmk : makeMut limit fuel h a = some (h3'.set bn (some ⟨1, none⟩), bn, n') := by
      simp only [makeMut, hc, Option.bind_eq_bind, Option.bind_some, if_neg hs, hclone]
      have : alloc h2 n' = ((alloc h2 n').1, bn) := by rw [← hbn]
      rw [this]
      simp only [d1, Option.bind_some]
      rfl
    refine ⟨h3'.set bn (some ⟨1, none⟩), bn, n', es, le, lg, hmk,
      ⟨⟨1, by simp [cell_set _ _ _ _ hlt3]⟩, fun c hc' => ?_, hi', take_RC cell3 d2.rc, ⟨fun b hb m n l hl => ?_, fun b _ c c' hb hn hb' => ?_⟩, fun w => ?_, fun T HT b c hb => ?_⟩,
      h3, h4, h5.mono fun e he l hl => ?_, ?_, h7⟩
    · exact absurd rfl (hne bn (by rw [strongOf_cell hc']; have := H.pos _ _ hc'; omega))
    · refine rep3 _ _ _ _ (fun x hx => ?_) hl
      cases hx
      have g1 := H.count b
      have g2 := d2.rc.count b
      have g3 := List.count_pos_iff.mpr hb
      simp only [List.count_cons] at g1 g2
      omega
    · rw [cell_set _ _ _ _ hlt3] at hb'
      split at hb'
      · cases hb'; rfl
      · obtain ⟨c2', hc2, hi2⟩ := d2.shrinks b c' hb'
        have lk : (alloc h2 n').1.look b = c2'.inner := look_of_cell hc2
        have lk0 : h.look b = none := by rw [look_of_cell hb, hn]
        rw [← hi2, ← lk]
        have hbne : b ≠ bn := hne b (by rw [strongOf_cell hb]; have := H.pos _ _ hb; omega)
        have : (alloc h2 n').1.look b = h2.look b := by
          simp only [Heap.look, alloc_cell]
          rw [if_neg (by rw [← hb2]; exact hbne)]
        rw [this, look2, lk0]
    · rw [take_bal w cell3, d2.bal, alloc_bal, b4, a4, vals_eq hi']
      omega
    · rw [cell_set _ _ _ _ hlt3] at hb
      split at hb
      · left; simp [*]
      · rename_i hbne
        have hs3 : strongOf h3' b ≠ 0 := by rw [strongOf_cell hb]; have := d2.rc.pos _ _ hb; omega
        obtain ⟨c2', hc2, _⟩ := d2.shrinks b c hb
        have hs0 : strongOf h b ≠ 0 := by
          intro hz
          rw [alloc_cell, if_neg (by rw [← hb2]; exact hbne)] at hc2
          have := b9 b (a7 b hz)
          rw [strongOf_cell hc2] at this
          have := b2.pos _ _ hc2
          omega
        obtain ⟨c0, hc0⟩ := live_of_strong hs0
        rcases HT b c0 hc0 with h1 | ⟨m, n, l, h1⟩
        · left; simp [h1]
        · exact Or.inr ⟨m, n, l, rep3 _ _ _ _ (fun x hx => by cases hx; exact ⟨hs0, hs3⟩) h1⟩
    · exact rep3 _ _ _ _ (fun b hb => ⟨hlive b (smaller_mem hi he hb), alive3 b (by rw [heq]; exact smaller_mem hi he hb)⟩) hl
    · exact rep3 _ _ _ _ (fun b hb => ⟨hlive b (greater_mem hi hb), alive3 b (by rw [heq]; exact greater_mem hi hb)⟩) h6

end Verif.BTree
