import Verif.BTree.Insert

/-! Queries, and whole histories of operations on sets that share nodes. -/
namespace Verif.BTree
variable {α κ : Type}

/-! ### Queries -/

theorem Rep.mono_root {limit : Nat} {h : Heap α} {m m' n : Nat} {o : Option Addr} {l : List α} (hm : m' ≤ m) (H : Rep limit h m n o l) :
    Rep limit h m' n o l := by
  cases n with
  | zero => exact H
  | succ n =>
    obtain ⟨a, inner, es, le, lg, e, h1, h2, h3, h4⟩ := H
    exact ⟨a, inner, es, le, lg, e, h1, h2, by omega, h4⟩

def visitEntry (fuel : Nat) (h : Heap α) (acc : List α) (e : Entry α) : Option (List α) := do
  match e.smaller with
  | none => return acc ++ [e.value]
  | some s => return acc ++ (← visit fuel h s) ++ [e.value]

theorem visit_succ (fuel : Nat) (h : Heap α) (a : Addr) : visit (fuel + 1) h a = (do
    let n ← h.look a
    let es ← entries n
    let acc ← es.foldlM (visitEntry fuel h) []
    match n.greater with
    | none => return acc
    | some g => return acc ++ (← visit fuel h g)) := rfl

def lenEntry (fuel : Nat) (h : Heap α) (acc : Nat) (e : Entry α) : Option Nat := do
  match e.smaller with
  | none => return acc + 1
  | some s => return acc + 1 + (← nodeLen fuel h s)

theorem nodeLen_succ (fuel : Nat) (h : Heap α) (a : Addr) : nodeLen (fuel + 1) h a = (do
    let n ← h.look a
    let es ← entries n
    let acc ← es.foldlM (lenEntry fuel h) 0
    match n.greater with
    | none => return acc
    | some g => return acc + (← nodeLen fuel h g)) := rfl

theorem visit_spec {limit : Nat} {h : Heap α} (n : Nat) : ∀ (fuel m : Nat) (a : Addr) (l : List α), n ≤ fuel → Rep limit h m n (some a) l →
    visit fuel h a = some l := by
  induction n with
  | zero => intro fuel m a l _ H; simp [Rep] at H
  | succ n ih =>
    intro fuel m a l hf H
    obtain ⟨fuel, rfl⟩ : ∃ f, fuel = f + 1 := ⟨fuel - 1, by omega⟩
    obtain ⟨n', inner, es, le, lg, e, h1, h2, h3, h4, h5, h6, rfl⟩ := H.of_some
    cases e
    have key : ∀ (es : List (Entry α)) (le acc : List α), Reps (Rep limit h (limit / 2) n) es le →
        es.foldlM (visitEntry fuel h) acc = some (acc ++ le) := by
      intro es le acc H
      induction H generalizing acc with
      | nil => simp
      | @cons e es l r hp _ ihr =>
        cases hs : e.smaller with
        | none =>
          rw [hs] at hp
          obtain ⟨_, rfl⟩ := hp.of_none
          simp [List.foldlM_cons, visitEntry, hs, ihr]
        | some s =>
          rw [hs] at hp
          have hv := ih fuel _ s l (by omega) hp
          simp [List.foldlM_cons, visitEntry, hs, hv, ihr]
    have hk := key es le [] h5
    rw [visit_succ]
    simp only [h1, entries_eq h2, Option.bind_eq_bind, Option.bind_some, hk]
    cases hg : inner.greater with
    | none => rw [hg] at h6; obtain ⟨_, rfl⟩ := h6.of_none; simp
    | some g => rw [hg] at h6; simp [ih fuel _ g lg (by omega) h6]

theorem nodeLen_spec {limit : Nat} {h : Heap α} (n : Nat) : ∀ (fuel m : Nat) (a : Addr) (l : List α), n ≤ fuel → Rep limit h m n (some a) l →
    nodeLen fuel h a = some l.length := by
  induction n with
  | zero => intro fuel m a l _ H; simp [Rep] at H
  | succ n ih =>
    intro fuel m a l hf H
    obtain ⟨fuel, rfl⟩ : ∃ f, fuel = f + 1 := ⟨fuel - 1, by omega⟩
    obtain ⟨n', inner, es, le, lg, e, h1, h2, h3, h4, h5, h6, rfl⟩ := H.of_some
    cases e
    have key : ∀ (es : List (Entry α)) (le : List α) (acc : Nat), Reps (Rep limit h (limit / 2) n) es le →
        es.foldlM (lenEntry fuel h) acc = some (acc + le.length) := by
      intro es le acc H
      induction H generalizing acc with
      | nil => simp
      | @cons e es l r hp _ ihr =>
        cases hs : e.smaller with
        | none =>
          rw [hs] at hp
          obtain ⟨_, rfl⟩ := hp.of_none
          simp [List.foldlM_cons, lenEntry, hs, ihr]
          omega
        | some s =>
          rw [hs] at hp
          have hv := ih fuel _ s l (by omega) hp
          simp [List.foldlM_cons, lenEntry, hs, hv, ihr]
          omega
    have hk := key es le 0 h5
    rw [nodeLen_succ]
    simp only [h1, entries_eq h2, Option.bind_eq_bind, Option.bind_some, hk]
    cases hg : inner.greater with
    | none => rw [hg] at h6; obtain ⟨_, rfl⟩ := h6.of_none; simp
    | some g => rw [hg] at h6; simp [ih fuel _ g lg (by omega) h6]

variable [LinearOrder κ]

/-- The element of a sorted list with a given key. -/
def look (key : α → κ) (l : List α) (k : κ) : Option α := l.find? fun x => decide (key x = k)

theorem look_skip (key : α → κ) (k : κ) (l1 l2 : List α) (h : ∀ x ∈ l1, key x < k) : look key (l1 ++ l2) k = look key l2 k := by
  unfold look
  rw [List.find?_append, List.find?_eq_none.mpr (fun x hx => by simpa using ne_of_lt (h x hx))]
  rfl

theorem look_stop (key : α → κ) (k : κ) (l1 l2 : List α) (h : ∀ x ∈ l2, k < key x) : look key (l1 ++ l2) k = look key l1 k := by
  unfold look
  have h2 : l2.find? (fun x => decide (key x = k)) = none := List.find?_eq_none.mpr (fun x hx => by simpa using ne_of_gt (h x hx))
  rw [List.find?_append, h2]
  simp

theorem look_hit (key : α → κ) (l : List α) (y : α) : look key (y :: l) (key y) = some y := by
  simp [look]

theorem get_spec (key : α → κ) {limit : Nat} {h : Heap α} (k : κ) (n : Nat) : ∀ (fuel m : Nat) (a : Addr) (l : List α), n ≤ fuel →
    Rep limit h m n (some a) l → Sorted key l → get key fuel h a k = some (look key l k) := by
  induction n with
  | zero => intro fuel m a l _ H; simp [Rep] at H
  | succ n ih =>
    intro fuel m a l hf H so
    obtain ⟨fuel, rfl⟩ : ∃ f, fuel = f + 1 := ⟨fuel - 1, by omega⟩
    obtain ⟨n', inner, es, le, lg, e, h1, h2, h3, h4, h5, h6, rfl⟩ := H.of_some
    cases e
    obtain ⟨so1, so2, so3⟩ := List.pairwise_append.mp so
    have hsc := scan_spec key k es 0
    unfold get
    simp only [h1, entries_eq h2, Option.bind_eq_bind, Option.bind_some]
    cases hscan : scan key k 0 es with
    | past =>
      rw [hscan] at hsc
      rw [look_skip key k _ _ (h5.all_lt so1 hsc)]
      cases hg : inner.greater with
      | none => rw [hg] at h6; obtain ⟨_, rfl⟩ := h6.of_none; rfl
      | some g => rw [hg] at h6; exact ih fuel _ g lg (by omega) h6 so2
    | equal i e =>
      rw [hscan] at hsc
      obtain ⟨es1, es2, rfl, rfl, hlt1, heq⟩ := hsc
      obtain ⟨l1, l2, rfl, E1, E2⟩ := h5.split
      obtain ⟨lc, l3, rfl, E3, E4⟩ := E2.cons_inv
      have a1 := E1.all_lt (List.pairwise_append.mp so1).1 hlt1
      have a2 : ∀ x ∈ lc, key x < k := fun x hx => by
        have := (List.pairwise_append.mp (List.pairwise_append.mp so1).2.1).2.2 x hx e.value (by simp)
        rwa [heq] at this
      simp only [List.append_assoc]
      rw [look_skip key k _ _ a1, look_skip key k _ _ a2, ← heq, List.cons_append, look_hit]
      rfl
    | greater i e =>
      rw [hscan] at hsc
      obtain ⟨es1, es2, rfl, rfl, hlt1, hgt⟩ := hsc
      obtain ⟨l1, l2, rfl, E1, E2⟩ := h5.split
      obtain ⟨lc, l3, rfl, E3, E4⟩ := E2.cons_inv
      have a1 := E1.all_lt (List.pairwise_append.mp so1).1 hlt1
      have hp := (List.pairwise_append.mp so1).2.1
      have a2 : ∀ x ∈ e.value :: (l3 ++ lg), k < key x := by
        intro x hx
        simp only [List.mem_cons, List.mem_append] at hx
        rcases hx with rfl | hx | hx
        · exact hgt
        · exact lt_trans hgt ((List.pairwise_cons.mp (List.pairwise_append.mp hp).2.1).1 x hx)
        · exact lt_trans hgt (so3 e.value (by simp) x hx)
      have e1 : l1 ++ (lc ++ e.value :: l3) ++ lg = l1 ++ (lc ++ e.value :: (l3 ++ lg)) := by simp
      rw [e1, look_skip key k _ _ a1, look_stop key k _ _ a2]
      cases hs : e.smaller with
      | none => rw [hs] at E3; obtain ⟨_, rfl⟩ := E3.of_none; simp [hs, look]
      | some s => rw [hs] at E3; simp only [hs]; exact ih fuel _ s lc (by omega) E3 (List.pairwise_append.mp hp).1

/-! ### Insertion into sorted lists -/

theorem ins_mem (key : α → κ) (v : α) (l : List α) : ∀ x ∈ (ins key v l).2, x = v ∨ x ∈ l := by
  induction l with
  | nil => simp [ins]
  | cons y l ih =>
    intro x hx
    simp only [ins] at hx
    split at hx
    · simp only [List.mem_cons] at hx ⊢
      rcases hx with h | h
      · exact Or.inr (Or.inl h)
      · rcases ih x h with h | h
        · exact Or.inl h
        · exact Or.inr (Or.inr h)
    · split at hx <;> simp only [List.mem_cons] at hx ⊢ <;> grind

theorem ins_sorted (key : α → κ) (v : α) {l : List α} (h : Sorted key l) : Sorted key (ins key v l).2 := by
  induction l with
  | nil => simp [ins, Sorted]
  | cons y l ih =>
    obtain ⟨h1, h2⟩ := List.pairwise_cons.mp h
    simp only [ins]
    by_cases a : key y < key v
    · rw [if_pos a]
      refine List.pairwise_cons.mpr ⟨fun x hx => ?_, ih h2⟩
      rcases ins_mem key v l x hx with e | e
      · subst e; exact a
      · exact h1 x e
    · rw [if_neg a]
      by_cases b : key y = key v
      · rw [if_pos b]
        exact List.pairwise_cons.mpr ⟨fun x hx => b ▸ h1 x hx, h2⟩
      · rw [if_neg b]
        have hvy : key v < key y := lt_of_le_of_ne (le_of_not_gt a) (Ne.symm b)
        refine List.pairwise_cons.mpr ⟨fun x hx => ?_, h⟩
        rcases List.mem_cons.mp hx with e | e
        · rw [e]; exact hvy
        · exact lt_trans hvy (h1 x e)

theorem look_none_of_lt (key : α → κ) (k : κ) (l : List α) (h : ∀ x ∈ l, k < key x) : look key l k = none := by
  have := look_stop key k [] l h
  simpa [look] using this

theorem ins_fst (key : α → κ) (v : α) {l : List α} (h : Sorted key l) : (ins key v l).1 = look key l (key v) := by
  induction l with
  | nil => rfl
  | cons y l ih =>
    obtain ⟨h1, h2⟩ := List.pairwise_cons.mp h
    simp only [ins]
    by_cases a : key y < key v
    · rw [if_pos a]; simp only []; rw [ih h2]; simp [look, ne_of_lt a]
    · rw [if_neg a]
      by_cases b : key y = key v
      · rw [if_pos b]; simp [look, b]
      · rw [if_neg b]
        have hvy : key v < key y := lt_of_le_of_ne (le_of_not_gt a) (Ne.symm b)
        rw [look_none_of_lt key (key v) (y :: l)]
        intro x hx
        rcases List.mem_cons.mp hx with e | e
        · rw [e]; exact hvy
        · exact lt_trans hvy (h1 x e)

theorem look_ins (key : α → κ) (v : α) {l : List α} (h : Sorted key l) (k : κ) : look key (ins key v l).2 k = if k = key v then some v else look key l k := by
  induction l with
  | nil =>
    by_cases e : k = key v
    · simp [ins, look, e]
    · simp [ins, look, e, Ne.symm e]
  | cons y l ih =>
    obtain ⟨h1, h2⟩ := List.pairwise_cons.mp h
    simp only [ins]
    by_cases a : key y < key v
    · rw [if_pos a]
      by_cases e : key y = k
      · simp [look, e]
        intro c; subst c; exact absurd (e ▸ a) (lt_irrefl _)
      · have := ih h2
        simp [look, e] at this ⊢
        exact this
    · rw [if_neg a]
      by_cases b : key y = key v
      · rw [if_pos b]
        by_cases e : k = key v
        · simp [look, e]
        · simp [look, e, Ne.symm e, b]
      · rw [if_neg b]
        by_cases e : k = key v
        · simp [look, e]
        · simp [look, e, Ne.symm e]

omit [LinearOrder κ] in
/-- A tree has at least as many elements as levels. -/
theorem Rep.height_le {q : Nat} (hq : 1 ≤ q) {h : Heap α} (n : Nat) : ∀ {m : Nat} {o : Option Addr} {l : List α}, 1 ≤ m → Rep (2 * q + 1) h m n o l → n ≤ l.length := by
  induction n with
  | zero => intros; omega
  | succ n ih =>
    intro m o l hm H
    obtain ⟨a, inner, es, le, lg, e, h1, h2, h3, h4, h5, h6, rfl⟩ := H
    have := ih (by omega) h6
    have : 1 ≤ le.length := by
      cases h5 with
      | nil => simp at h3; omega
      | cons => simp; omega
    simp
    omega

theorem ins_length (key : α → κ) (v : α) (l : List α) : (ins key v l).2.length ≤ l.length + 1 := by
  induction l with
  | nil => simp [ins]
  | cons y l ih =>
    simp only [ins]
    split
    · simp; omega
    · split <;> simp

/-! ### The state -/

/-- The handles held by variables. -/
def roots (vars : List (Option Set)) : List Addr := vars.filterMap fun v => v.bind (·.root)

/-- A variable with its contents in order. -/
def VarOk (key : α → κ) (q : Nat) (h : Heap α) : Option Set → Option (List α) → Prop
  | none, none => True
  | some t, some l => Sorted key l ∧ match t.root with
    | none => t.alloc = true ∧ l = []
    | some a => ∃ n, Rep (2 * q + 1) h 1 (n + 1) (some a) l
  | _, _ => False

/-- Invariant, with the contents of every variable. -/
structure Inv (key : α → κ) (q bound : Nat) (s : St α) (M : List (Option (List α))) : Prop where
  rc : RC s.heap (roots s.vars)
  size : s.vars.length = M.length
  vars : ∀ (i : Nat) (t : Option Set), s.vars[i]? = some t → ∃ l : Option (List α), M[i]? = some l ∧ VarOk key q s.heap t l
  bound : ∀ (i : Nat) (l : List α), M[i]? = some (some l) → l.length ≤ bound
  all : AllRep (2 * q + 1) s.heap []

theorem Inv.new (key : α → κ) (q : Nat) : Inv key q 0 St.new [] :=
  ⟨⟨fun a => by simp [St.new, strongOf, Heap.cell, refsTo, roots], fun a c h => by simp [St.new, Heap.cell] at h⟩, rfl, by simp [St.new], by simp,
    fun a c h => by simp [St.new, Heap.cell] at h⟩

theorem Inv.weaken {key : α → κ} {q b b' : Nat} {s : St α} {M : List (Option (List α))} (H : Inv key q b s M) (hb : b ≤ b') : Inv key q b' s M :=
  ⟨H.rc, H.size, H.vars, fun i l h => Nat.le_trans (H.bound i l h) hb, H.all⟩

omit [LinearOrder κ] in
theorem roots_set (vars : List (Option Set)) (i : Nat) (t t' : Option Set) (h : vars[i]? = some t) (b : Addr) :
    (roots (vars.set i t')).count b + ((t.bind (·.root)).toList).count b = (roots vars).count b + ((t'.bind (·.root)).toList).count b := by
  induction vars generalizing i with
  | nil => simp at h
  | cons v vars ih =>
    cases i with
    | zero =>
      simp at h
      subst h
      simp only [roots, List.set_cons_zero, List.filterMap_cons]
      cases h1 : v.bind (·.root) <;> cases h2 : t'.bind (·.root) <;> simp [List.count_cons] <;> omega
    | succ i =>
      have := ih i (by simpa using h)
      simp only [roots, List.set_cons_succ, List.filterMap_cons] at this ⊢
      cases h1 : v.bind (·.root) <;> simp [List.count_cons] <;> omega

/-- The variables other than `i` after an operation on variable `i`. -/
theorem Inv.update {key : α → κ} {q b b' : Nat} {s : St α} {M : List (Option (List α))} (H : Inv key q b s M) {i : Nat} {t t' : Option Set} {l' : Option (List α)}
    (ht : s.vars[i]? = some t) {h' : Heap α} {F : List Addr} (hF : ∀ c, (roots s.vars).count c = ((t.bind (·.root)).toList ++ F).count c)
    (hrc : RC h' ((t'.bind (·.root)).toList ++ F)) (hb : b ≤ b')
    (hreps : ∀ c ∈ F, ∀ m n l, Rep (2 * q + 1) s.heap m n (some c) l → Rep (2 * q + 1) h' m n (some c) l)
    (hok : VarOk key q h' t' l') (hlen : ∀ l, l' = some l → l.length ≤ b')
    (hall : AllRep (2 * q + 1) h' []) : Inv key q b' ⟨h', s.vars.set i t'⟩ (M.set i l') := by
  have hi : i < s.vars.length := (List.getElem?_eq_some_iff.mp ht).1
  refine ⟨hrc.perm fun c => ?_, by simp [H.size], fun j u hu => ?_, fun j l hl => ?_, hall⟩
  · have h1 := roots_set s.vars i t t' ht c
    have h2 := hF c
    simp only [List.count_append] at h2 ⊢
    omega
  · simp only [List.getElem?_set] at hu ⊢
    by_cases e : i = j
    · subst e
      simp [hi] at hu
      subst hu
      exact ⟨l', by simp [← H.size, hi], hok⟩
    · rw [if_neg e] at hu
      obtain ⟨l, h1, h2⟩ := H.vars j u hu
      refine ⟨l, by rw [if_neg e]; exact h1, ?_⟩
      cases u with
      | none => cases l <;> exact h2
      | some u =>
        cases l with
        | none => exact h2
        | some l =>
          refine ⟨h2.1, ?_⟩
          have h3 := h2.2
          cases hr : u.root with
          | none => simpa [hr] using h3
          | some c =>
            simp only [hr] at h3 ⊢
            obtain ⟨n, hn⟩ := h3
            refine ⟨n, hreps c ?_ _ _ _ hn⟩
            have hmem : c ∈ roots s.vars ∧ ((t.bind (·.root)).toList).count c < (roots s.vars).count c := by
              have h5 := roots_set s.vars i t none ht c
              have h6 : c ∈ roots (s.vars.set i none) := by
                unfold roots
                exact List.mem_filterMap.mpr ⟨some u, List.mem_of_getElem? (i := j) (by rw [List.getElem?_set, if_neg e]; exact hu), by simp [hr]⟩
              have h7 := List.count_pos_iff.mpr h6
              have h8 : (((none : Option Set).bind (·.root)).toList).count c = 0 := by simp
              rw [h8] at h5
              exact ⟨List.count_pos_iff.mp (by omega), by omega⟩
            have h9 := hF c
            rw [List.count_append] at h9
            exact List.count_pos_iff.mp (by omega)
  · simp only [List.getElem?_set] at hl
    by_cases e : i = j
    · subst e
      simp [← H.size, hi] at hl
      exact hlen l hl
    · rw [if_neg e] at hl
      exact Nat.le_trans (H.bound j l hl) hb

theorem Inv.var {key : α → κ} {q b : Nat} {s : St α} {M : List (Option (List α))} (H : Inv key q b s M) (i : Nat) :
    (s.var i = none ∧ (M[i]?).join = none) ∨ ∃ t l, s.vars[i]? = some (some t) ∧ s.var i = some t ∧ M[i]? = some (some l) ∧ VarOk key q s.heap (some t) (some l) := by
  unfold St.var
  cases h : s.vars[i]? with
  | none =>
    refine Or.inl ⟨rfl, ?_⟩
    have := List.getElem?_eq_none_iff.mp h
    rw [List.getElem?_eq_none (by rw [← H.size]; exact this)]
    rfl
  | some t =>
    obtain ⟨l, h1, h2⟩ := H.vars i t h
    cases t with
    | none =>
      cases l with
      | none => exact Or.inl ⟨rfl, by rw [h1]; rfl⟩
      | some l => exact h2.elim
    | some t =>
      cases l with
      | none => exact h2.elim
      | some l => exact Or.inr ⟨t, l, rfl, rfl, h1, h2⟩

/-! ### One operation -/

omit [LinearOrder κ] in
theorem roots_split (vars : List (Option Set)) (i : Nat) (t : Option Set) (h : vars[i]? = some t) :
    ∃ F, ∀ c, (roots vars).count c = ((t.bind (·.root)).toList ++ F).count c := by
  refine ⟨roots (vars.set i none), fun c => ?_⟩
  have := roots_set vars i t none h c
  simp at this
  simp
  omega

/-- The end of `nodeInsert`. -/
def grow (limit fuel : Nat) (h : Heap α) (a : Addr) : Out α → Option (Heap α × Addr × Option α)
  | .done x => some (h, a, x)
  | .split right pivot => do
    let h ← incr h a
    if 0 < limit then
      let (h, b) := alloc h ⟨some ⟨some a, pivot⟩ :: List.replicate (limit - 1) none, 1, some right⟩
      let h ← dropArc fuel h a
      return (h, b, none)
    else none

theorem nodeInsert_go (key : α → κ) (p : Params) (fuel : Nat) (h : Heap α) (a : Addr) (v : α)
    (hp : p.replace = true ∨ get key fuel h a (key v) = some none) :
    nodeInsert key p fuel h a v = (insertInner key p.limit fuel h a v).bind fun r => grow p.limit fuel r.1 r.2.1 r.2.2 := by
  have e : nodeInsert key p fuel h a v = ((if p.replace then some none else get key fuel h a (key v)).bind fun present =>
      if (!p.replace && present.isSome) = true then some (h, a, some v) else (insertInner key p.limit fuel h a v).bind fun r => grow p.limit fuel r.1 r.2.1 r.2.2) := by
    unfold nodeInsert grow
    cases p.replace <;> rfl
  rw [e]
  rcases hp with hp | hp
  · simp [hp]
  · rw [hp]; cases p.replace <;> simp

theorem nodeInsert_spec (key : α → κ) {q : Nat} (hq : 1 ≤ q) (replace : Bool) {n fuel : Nat} {h : Heap α} {a : Addr} {F : List Addr} {l : List α} (v : α)
    (hf : n + 1 ≤ fuel) (H : RC h (a :: F)) (hr : Rep (2 * q + 1) h 1 (n + 1) (some a) l) (so : Sorted key l) :
    ∃ h' a' x, nodeInsert key ⟨replace, 2 * q + 1⟩ fuel h a v = some (h', a', x) ∧ RC h' (a' :: F) ∧
      (∀ c ∈ F, ∀ m n l, Rep (2 * q + 1) h m n (some c) l → Rep (2 * q + 1) h' m n (some c) l) ∧
      (∀ w, bal w h' + wsum w x.toList = bal w h + w v) ∧ (AllRep (2 * q + 1) h [] → AllRep (2 * q + 1) h' []) ∧
      ((replace = false ∧ (look key l (key v)).isSome ∧ x = some v ∧ h' = h ∧ a' = a) ∨
        ((replace = true ∨ look key l (key v) = none) ∧ x = (ins key v l).1 ∧ ∃ n', Rep (2 * q + 1) h' 1 (n' + 1) (some a') (ins key v l).2)) := by
  have hget := get_spec key (key v) (n + 1) fuel 1 a l hf hr so
  by_cases hc : replace = false ∧ (look key l (key v)).isSome
  · obtain ⟨rfl, hc⟩ := hc
    refine ⟨h, a, some v, by simp [nodeInsert, hget, hc], H, fun _ _ _ _ _ h => h, fun w => by simp [wsum], fun h => h, Or.inl ⟨rfl, hc, rfl, rfl, rfl⟩⟩
  have hc' : replace = true ∨ look key l (key v) = none := by
    cases replace with
    | true => exact Or.inl rfl
    | false => right; simpa using hc
  rw [nodeInsert_go key _ fuel h a v (by rcases hc' with e | e; exact Or.inl e; right; rw [hget, e])]
  obtain ⟨h1, a1, out, i1, i2, i3, i4, i5⟩ := insertInner_spec key hq n fuel 1 h a F l v hf H hr so
  rw [i1]
  simp only [Option.bind_some]
  cases out with
  | done x =>
    exact ⟨h1, a1, x, rfl, i2, i3.reps, i5, i3.all [], Or.inr ⟨hc', i4.1, n, i4.2⟩⟩
  | split r p =>
    obtain ⟨j1, l1, l2, j2, j3, j4⟩ := i4
    obtain ⟨h2, k1, k2, k3, k4, _, _, k7, _⟩ := incr_spec (a := a1) i2 (by obtain ⟨c, hc⟩ := i2.live (a := a1) (by simp); rw [strongOf_cell hc]; have := i2.pos _ _ hc; omega)
    have k3' : ∀ b x, h1.look b = some x → h2.look b = some x := fun b x hb => by rw [k3, hb]
    let inner : Inner α := ⟨some ⟨some a1, p⟩ :: List.replicate (2 * q + 1 - 1) none, 1, some r⟩
    have his : Is (2 * q + 1) inner [⟨some a1, p⟩] := ⟨by simp [inner], rfl, rfl⟩
    obtain ⟨m1, m2, m3, m4⟩ := alloc_RC (n := inner) (F := a1 :: F) k2 (fun b => by
      rw [handles_eq his]; simp [inner, eHandles, outHandles, List.count_cons]; omega)
    have hl2 : ∀ b x, h1.look b = some x → (alloc h2 inner).1.look b = some x := fun b x hb => alloc_look h2 inner (k3' b x hb)
    have hrep : Rep (2 * q + 1) (alloc h2 inner).1 1 (n + 1 + 1) (some (alloc h2 inner).2) ((l1 ++ p :: []) ++ l2) := by
      refine ⟨_, inner, _, _, _, rfl, alloc_look_new h2 inner, his, by simp, by simp; omega, Reps.cons (e := ⟨some a1, p⟩) (j3.look_mono hl2) .nil, j4.look_mono hl2, rfl⟩
    have m1' : RC (alloc h2 inner).1 (a1 :: (alloc h2 inner).2 :: F) := m1.perm fun b => by simp [List.count_cons]; omega
    obtain ⟨h3, d1, d2⟩ := dropArc_spec (n + 1) fuel hf m1' (j3.look_mono hl2)
    have hlive : ∀ c ∈ (alloc h2 inner).2 :: F, strongOf h3 c ≠ 0 := fun c hc => by
      obtain ⟨x, hx⟩ := d2.rc.live hc
      rw [strongOf_cell hx]
      have := d2.rc.pos _ _ hx
      omega
    refine ⟨h3, (alloc h2 inner).2, none, ?_, d2.rc, fun c hc m n l hl => ?_, fun w => ?_, fun HT => AllRep.shrink ?_ d2, Or.inr ⟨hc', j1.symm, n + 1, ?_⟩⟩
    · simp only [grow, k1, Option.bind_eq_bind, Option.bind_some]
      rw [if_pos (by omega)]
      show (dropArc fuel (alloc h2 inner).1 a1).bind _ = _
      rw [d1]
      rfl
    · refine ((i3.reps c hc m n l hl).look_mono hl2).shrink d2.shrinks d2.rc fun b hb => ?_
      cases hb
      exact hlive c (by simp [hc])
    · have e1 := i5 w
      have e2 := alloc_bal w h2 inner
      rw [vals_eq his] at e2
      rw [d2.bal, e2, k4]
      simp [outVals, wsum, eVals] at e1 ⊢
      omega
    · intro b c hb
      rw [alloc_cell] at hb
      split at hb
      · rename_i e; subst e; exact Or.inr ⟨_, _, _, hrep⟩
      · have hs1 : strongOf h1 b ≠ 0 := by
          intro hz
          have e := k7 b
          rw [hz, strongOf_cell hb] at e
          have := k2.pos _ _ hb
          have hb1 : b = a1 := by
            have : 0 < [a1].count b := by omega
            exact List.mem_singleton.mp (List.count_pos_iff.mp this)
          obtain ⟨x, hx⟩ := i2.live (a := a1) (by simp)
          rw [hb1, strongOf_cell hx] at hz
          have := i2.pos _ _ hx
          omega
        obtain ⟨c1, hc1⟩ := live_of_strong hs1
        rcases i3.all [] HT b c1 hc1 with x | ⟨m, n, l, x⟩
        · simp at x
        · exact Or.inr ⟨m, n, l, x.look_mono hl2⟩
    · rw [j2]
      have := hrep.shrink d2.shrinks d2.rc fun b hb => by cases hb; exact hlive _ (by simp)
      simpa using this

/-- One operation on lists. -/
def lstep (key : α → κ) (replace : Bool) (M : List (Option (List α))) : Op α κ → Res α × List (Option (List α))
  | .new => (.unit, M ++ [some []])
  | .clone i =>
    match (M[i]?).join with
    | none => (.unit, M)
    | some l => (.unit, M ++ [some l])
  | .insert i v =>
    match (M[i]?).join with
    | none => (.unit, M)
    | some l =>
      if replace || (look key l (key v)).isNone then (.elem (ins key v l).1, M.set i (some (ins key v l).2))
      else (.elem (some v), M)
  | .get i k =>
    match (M[i]?).join with
    | none => (.unit, M)
    | some l => (.elem (look key l k), M)
  | .len i =>
    match (M[i]?).join with
    | none => (.unit, M)
    | some l => (.count l.length, M)
  | .isEmpty i =>
    match (M[i]?).join with
    | none => (.unit, M)
    | some l => (.flag l.isEmpty, M)
  | .visit i =>
    match (M[i]?).join with
    | none => (.unit, M)
    | some l => (.list l, M)
  | .drop i =>
    match (M[i]?).join with
    | none => (.unit, M)
    | some _ => (.unit, M.set i none)

/-- The values given to an operation, and those it gives back (an insertion that does not happen leaves the value where it was). -/
def given : Op α κ → List α
  | .insert _ v => [v]
  | _ => []
def returned : Op α κ → Res α → List α
  | .insert _ _, .elem x => x.toList
  | .insert _ v, .unit => [v]
  | _, _ => []

/-- What one operation does. -/
def StepOk (key : α → κ) (replace : Bool) (q b fuel : Nat) (s : St α) (M : List (Option (List α))) (op : Op α κ) : Prop :=
  ∃ s', step key ⟨replace, 2 * q + 1⟩ fuel s op = some ((lstep key replace M op).1, s') ∧ Inv key q (b + 1) s' (lstep key replace M op).2 ∧
    ∀ w, bal w s'.heap + wsum w (returned op (lstep key replace M op).1) = bal w s.heap + wsum w (given op)

theorem Inv.push {key : α → κ} {q b b' : Nat} {s : St α} {M : List (Option (List α))} (H : Inv key q b s M) {t : Set} {l : List α} {h' : Heap α}
    (hrc : RC h' (t.root.toList ++ roots s.vars)) (hb : b ≤ b') (hlen : l.length ≤ b')
    (hreps : ∀ m n o l, Rep (2 * q + 1) s.heap m n o l → Rep (2 * q + 1) h' m n o l)
    (hok : VarOk key q h' (some t) (some l)) (hall : AllRep (2 * q + 1) h' []) : Inv key q b' ⟨h', s.vars ++ [some t]⟩ (M ++ [some l]) := by
  refine ⟨hrc.perm fun c => ?_, by simp [H.size], fun j u hu => ?_, fun j l' hl => ?_, hall⟩
  · simp only [roots, List.filterMap_append, List.count_append]
    cases ht : t.root <;> simp [ht] <;> omega
  · simp only [List.getElem?_append] at hu ⊢
    rw [← H.size]
    split at hu
    · rename_i hj
      rw [if_pos hj]
      obtain ⟨l, h1, h2⟩ := H.vars j u hu
      refine ⟨l, h1, ?_⟩
      cases u with
      | none => cases l <;> exact h2
      | some u =>
        cases l with
        | none => exact h2
        | some l =>
          refine ⟨h2.1, ?_⟩
          have h3 := h2.2
          cases hr : u.root with
          | none => simpa [hr] using h3
          | some c =>
            simp only [hr] at h3 ⊢
            obtain ⟨n, hn⟩ := h3
            exact ⟨n, hreps _ _ _ _ hn⟩
    · rename_i hj
      rw [if_neg hj]
      cases hk : j - s.vars.length with
      | zero => rw [hk] at hu; simp at hu; subst hu; exact ⟨some l, by simp, hok⟩
      | succ k => rw [hk] at hu; simp at hu
  · simp only [List.getElem?_append] at hl
    split at hl
    · exact Nat.le_trans (H.bound j l' hl) hb
    · cases hk : j - M.length with
      | zero => rw [hk] at hl; simp at hl; subst hl; exact hlen
      | succ k => rw [hk] at hl; simp at hl

theorem step_gone {key : α → κ} {replace : Bool} {q b fuel : Nat} {s : St α} {M : List (Option (List α))} (H : Inv key q b s M) {op : Op α κ}
    (h1 : step key ⟨replace, 2 * q + 1⟩ fuel s op = some (.unit, s)) (h2 : lstep key replace M op = (.unit, M))
    (h3 : ∀ w : α → Nat, wsum w (returned op .unit) = wsum w (given op)) : StepOk key replace q b fuel s M op := by
  refine ⟨s, by rw [h1, h2], by rw [h2]; exact H.weaken (by omega), fun w => ?_⟩
  rw [h2]
  simp only [h3]

theorem step_query {key : α → κ} {replace : Bool} {q b fuel : Nat} {s : St α} {M : List (Option (List α))} (H : Inv key q b s M) {op : Op α κ} (r : Res α)
    (h1 : step key ⟨replace, 2 * q + 1⟩ fuel s op = some (r, s)) (h2 : lstep key replace M op = (r, M))
    (h3 : returned op r = []) (h4 : given op = []) : StepOk key replace q b fuel s M op := by
  refine ⟨s, by rw [h1, h2], by rw [h2]; exact H.weaken (by omega), fun w => ?_⟩
  rw [h2, h3, h4]

theorem step_spec (key : α → κ) {q : Nat} (hq : 1 ≤ q) (replace : Bool) {b fuel : Nat} (hf : b ≤ fuel) {s : St α} {M : List (Option (List α))}
    (H : Inv key q b s M) (op : Op α κ) : StepOk key replace q b fuel s M op := by
  have hh : ∀ {i : Nat} {l : List α} {n : Nat} {a : Addr}, M[i]? = some (some l) → Rep (2 * q + 1) s.heap 1 (n + 1) (some a) l → n + 1 ≤ fuel := by
    intro i l n a h1 h2
    have := h2.height_le hq _ (Nat.le_refl 1)
    have := H.bound i l h1
    omega
  cases op with
  | new =>
    exact ⟨_, rfl, H.push (t := ⟨none, true⟩) H.rc (by omega) (by simp) (fun _ _ _ _ h => h) ⟨by simp [Sorted], rfl, rfl⟩ H.all, fun w => rfl⟩
  | clone i =>
    rcases H.var i with ⟨h1, h2⟩ | ⟨t, l, h1, h2, h3, h4, h5⟩
    · exact step_gone H (by simp [step, h1]) (by simp [lstep, h2]) (by simp [returned, given])
    have h3' : (M[i]?).join = some l := by rw [h3]; rfl
    cases hr : t.root with
    | none =>
      simp only [hr] at h5
      refine ⟨⟨s.heap, s.vars ++ [some ⟨none, true⟩]⟩, by simp [step, h2, lstep, h3', cloneSet, hr, h5.1], ?_, fun w => by simp [returned, given]⟩
      simp only [lstep, h3']
      exact H.push (t := ⟨none, true⟩) H.rc (by omega) (by rw [h5.2]; simp) (fun _ _ _ _ h => h) ⟨h4, rfl, h5.2⟩ H.all
    | some a =>
      simp only [hr] at h5
      obtain ⟨n, hn⟩ := h5
      have hmem : a ∈ roots s.vars := List.mem_filterMap.mpr ⟨some t, List.mem_of_getElem? h1, by simp [hr]⟩
      obtain ⟨h', k1, k2, k3, k4, _, _, k7, _⟩ := incr_spec (a := a) H.rc (by obtain ⟨c, hc⟩ := H.rc.live hmem; rw [strongOf_cell hc]; have := H.rc.pos _ _ hc; omega)
      have k3' : ∀ b x, s.heap.look b = some x → h'.look b = some x := fun b x hb => by rw [k3, hb]
      refine ⟨⟨h', s.vars ++ [some ⟨some a, false⟩]⟩, by simp [step, h2, lstep, h3', cloneSet, hr, k1], ?_, fun w => by simp [returned, given, k4]⟩
      simp only [lstep, h3']
      exact H.push (t := ⟨some a, false⟩) k2 (by omega) (by have := H.bound i l h3; omega) (fun _ _ _ _ h => h.look_mono k3') ⟨h4, n, hn.look_mono k3'⟩
        (H.all.look_mono k3' fun b c hb => by
          refine Or.inr (Or.inl (live_of_strong fun hz => ?_))
          have e := k7 b
          rw [hz, strongOf_cell hb] at e
          have := k2.pos _ _ hb
          have hb1 : b = a := by
            have : 0 < [a].count b := by omega
            exact List.mem_singleton.mp (List.count_pos_iff.mp this)
          obtain ⟨x, hx⟩ := H.rc.live hmem
          rw [hb1, strongOf_cell hx] at hz
          have := H.rc.pos _ _ hx
          omega)
  | insert i v =>
    rcases H.var i with ⟨h1, h2⟩ | ⟨t, l, h1, h2, h3, h4, h5⟩
    · exact step_gone H (by simp [step, h1]) (by simp [lstep, h2]) (by simp [returned, given])
    have h3' : (M[i]?).join = some l := by rw [h3]; rfl
    obtain ⟨F, hF⟩ := roots_split s.vars i (some t) h1
    have hlen := H.bound i l h3
    have hlen' := ins_length key v l
    cases hr : t.root with
    | none =>
      simp only [hr] at h5
      obtain ⟨h5, rfl⟩ := h5
      let inner : Inner α := ⟨some ⟨none, v⟩ :: List.replicate (2 * q + 1 - 1) none, 1, none⟩
      have his : Is (2 * q + 1) inner [⟨none, v⟩] := ⟨by simp [inner], rfl, rfl⟩
      obtain ⟨m1, m2, m3, m4⟩ := alloc_RC (n := inner) (F := F) H.rc (fun b => by
        rw [handles_eq his, hF]; simp [inner, eHandles, hr])
      have hl2 : ∀ b x, s.heap.look b = some x → (alloc s.heap inner).1.look b = some x := fun b x hb => alloc_look s.heap inner hb
      have hls : lstep key replace M (.insert i v) = (.elem none, M.set i (some [v])) := by simp [lstep, h3', look, ins]
      refine ⟨⟨(alloc s.heap inner).1, s.vars.set i (some ⟨some (alloc s.heap inner).2, false⟩)⟩, ?_, ?_, fun w => ?_⟩
      · rw [hls]
        simp only [step, h2, insert, hr, h5]
        rw [if_pos trivial, if_neg (by omega)]
        rfl
      · rw [hls]
        have hrep : Rep (2 * q + 1) (alloc s.heap inner).1 1 (0 + 1) (some (alloc s.heap inner).2) [v] := ?_
        refine H.update h1 hF m1 (by omega) (fun c _ m n l hl => hl.look_mono hl2) ⟨by simp [Sorted], 0, hrep⟩ (by simp) (H.all.look_mono hl2 fun b c hb => ?_)
        · rw [alloc_cell] at hb
          split at hb
          · rename_i e; subst e; exact Or.inr (Or.inr ⟨_, _, _, hrep⟩)
          · exact Or.inr (Or.inl ⟨c, hb⟩)
        exact ⟨_, inner, _, _, _, rfl, alloc_look_new s.heap inner, his, by simp, by simp; omega, Reps.cons (e := ⟨none, v⟩) ⟨rfl, rfl⟩ .nil, ⟨rfl, rfl⟩, rfl⟩
      · rw [hls, alloc_bal, vals_eq his]
        simp [returned, given, wsum, eVals]
    | some a =>
      simp only [hr] at h5
      obtain ⟨n, hn⟩ := h5
      have hrc : RC s.heap (a :: F) := H.rc.perm fun c => by rw [hF]; simp [hr]
      obtain ⟨h', a', x, k1, k2, k3, k4, kall, k5⟩ := nodeInsert_spec key hq replace v (hh h3 hn) hrc hn h4
      rcases k5 with ⟨rfl, e2, rfl, rfl, rfl⟩ | ⟨e1, rfl, n', e2⟩
      · obtain ⟨y, hy⟩ := Option.isSome_iff_exists.mp e2
        have hls : lstep key false M (.insert i v) = (.elem (some v), M) := by simp [lstep, h3', hy]
        have hti : (some { t with root := some a' } : Option Set) = some t := by cases t; simp at hr; simp [hr]
        have hset : s.vars.set i (some { t with root := some a' }) = s.vars := by
          rw [hti]
          apply List.ext_getElem?
          intro j
          rw [List.getElem?_set]
          split
          · rename_i e; subst e; rw [if_pos (List.getElem?_eq_some_iff.mp h1).1, h1]
          · rfl
        refine ⟨s, ?_, by rw [hls]; exact H.weaken (by omega), fun w => by rw [hls]; simp [returned, given, wsum]⟩
        rw [hls]
        simp [step, h2, insert, hr, k1, hset]
      · have hls : lstep key replace M (.insert i v) = (.elem (ins key v l).1, M.set i (some (ins key v l).2)) := by
          simp only [lstep, h3']
          rw [if_pos]
          rcases e1 with e | e <;> simp [e]
        refine ⟨⟨h', s.vars.set i (some { t with root := some a' })⟩, ?_, ?_, fun w => ?_⟩
        · rw [hls]; simp [step, h2, insert, hr, k1]
        · rw [hls]
          refine H.update h1 hF (t' := some { t with root := some a' }) k2 (by omega) k3 ⟨ins_sorted key v h4, n', e2⟩ (fun l hl => ?_) (kall H.all)
          cases hl
          omega
        · rw [hls]; simp only [returned, given]; rw [k4]; simp [wsum]
  | get i k =>
    rcases H.var i with ⟨h1, h2⟩ | ⟨t, l, h1, h2, h3, h4, h5⟩
    · exact step_gone H (by simp [step, h1]) (by simp [lstep, h2]) (by simp [returned, given])
    have h3' : (M[i]?).join = some l := by rw [h3]; rfl
    refine step_query H (.elem (look key l k)) ?_ (by simp [lstep, h3']) rfl rfl
    cases hr : t.root with
    | none => simp only [hr] at h5; simp [step, h2, hr, h5.2, look]
    | some a =>
      simp only [hr] at h5
      obtain ⟨n, hn⟩ := h5
      simp [step, h2, hr, get_spec key k (n + 1) fuel 1 a l (hh h3 hn) hn h4]
  | len i =>
    rcases H.var i with ⟨h1, h2⟩ | ⟨t, l, h1, h2, h3, h4, h5⟩
    · exact step_gone H (by simp [step, h1]) (by simp [lstep, h2]) (by simp [returned, given])
    have h3' : (M[i]?).join = some l := by rw [h3]; rfl
    refine step_query H (.count l.length) ?_ (by simp [lstep, h3']) rfl rfl
    cases hr : t.root with
    | none => simp only [hr] at h5; simp [step, h2, hr, h5.2]
    | some a =>
      simp only [hr] at h5
      obtain ⟨n, hn⟩ := h5
      simp [step, h2, hr, nodeLen_spec (n + 1) fuel 1 a l (hh h3 hn) hn]
  | isEmpty i =>
    rcases H.var i with ⟨h1, h2⟩ | ⟨t, l, h1, h2, h3, h4, h5⟩
    · exact step_gone H (by simp [step, h1]) (by simp [lstep, h2]) (by simp [returned, given])
    have h3' : (M[i]?).join = some l := by rw [h3]; rfl
    refine step_query H (.flag l.isEmpty) ?_ (by simp [lstep, h3']) rfl rfl
    cases hr : t.root with
    | none => simp only [hr] at h5; simp [step, h2, hr, h5.2]
    | some a =>
      simp only [hr] at h5
      obtain ⟨n, hn⟩ := h5
      have := hn.height_le hq _ (Nat.le_refl 1)
      cases l with
      | nil => simp at this
      | cons => simp [step, h2, hr]
  | visit i =>
    rcases H.var i with ⟨h1, h2⟩ | ⟨t, l, h1, h2, h3, h4, h5⟩
    · exact step_gone H (by simp [step, h1]) (by simp [lstep, h2]) (by simp [returned, given])
    have h3' : (M[i]?).join = some l := by rw [h3]; rfl
    refine step_query H (.list l) ?_ (by simp [lstep, h3']) rfl rfl
    cases hr : t.root with
    | none => simp only [hr] at h5; simp [step, h2, hr, h5.2]
    | some a =>
      simp only [hr] at h5
      obtain ⟨n, hn⟩ := h5
      simp [step, h2, hr, visit_spec (n + 1) fuel 1 a l (hh h3 hn) hn]
  | drop i =>
    rcases H.var i with ⟨h1, h2⟩ | ⟨t, l, h1, h2, h3, h4, h5⟩
    · exact step_gone H (by simp [step, h1]) (by simp [lstep, h2]) (by simp [returned, given])
    have h3' : (M[i]?).join = some l := by rw [h3]; rfl
    have hls : lstep key replace M (.drop i) = (.unit, M.set i none) := by simp [lstep, h3']
    obtain ⟨F, hF⟩ := roots_split s.vars i (some t) h1
    cases hr : t.root with
    | none =>
      simp only [hr] at h5
      refine ⟨⟨s.heap, s.vars.set i none⟩, by rw [hls]; simp [step, h2, dropSet, hr, h5.1], ?_, fun w => by simp [hls, returned, given]⟩
      rw [hls]
      exact H.update h1 hF (t' := none) (H.rc.perm fun c => by rw [hF]; simp [hr]) (by omega) (fun _ _ _ _ _ h => h) trivial (by simp) H.all
    | some a =>
      simp only [hr] at h5
      obtain ⟨n, hn⟩ := h5
      have hrc : RC s.heap (a :: F) := H.rc.perm fun c => by rw [hF]; simp [hr]
      obtain ⟨h', d1, d2⟩ := dropArc_spec (n + 1) fuel (hh h3 hn) hrc hn
      refine ⟨⟨h', s.vars.set i none⟩, by rw [hls]; simp [step, h2, dropSet, hr, d1], ?_, fun w => by simp [hls, returned, given, d2.bal]⟩
      rw [hls]
      refine H.update h1 hF (t' := none) d2.rc (by omega) (fun c hc m n l hl => hl.shrink d2.shrinks d2.rc fun b hb => ?_) trivial (by simp) (H.all.shrink d2)
      cases hb
      obtain ⟨x, hx⟩ := d2.rc.live hc
      rw [strongOf_cell hx]
      have := d2.rc.pos _ _ hx
      omega

/-- A history on lists. -/
def lrun (key : α → κ) (replace : Bool) (M : List (Option (List α))) : List (Op α κ) → List (Res α) × List (Option (List α))
  | [] => ([], M)
  | op :: ops =>
    let (r, M) := lstep key replace M op
    let (rs, M) := lrun key replace M ops
    (r :: rs, M)

def allGiven (ops : List (Op α κ)) : List α := ops.flatMap given
def allReturned (ops : List (Op α κ)) (rs : List (Res α)) : List α := (ops.zip rs).flatMap fun x => returned x.1 x.2

theorem run_spec (key : α → κ) {q : Nat} (hq : 1 ≤ q) (replace : Bool) (ops : List (Op α κ)) : ∀ {b fuel : Nat}, b + ops.length ≤ fuel →
    ∀ {s : St α} {M : List (Option (List α))}, Inv key q b s M →
    ∃ s', run key ⟨replace, 2 * q + 1⟩ fuel s ops = some ((lrun key replace M ops).1, s') ∧ Inv key q (b + ops.length) s' (lrun key replace M ops).2 ∧
      ∀ w, bal w s'.heap + wsum w (allReturned ops (lrun key replace M ops).1) = bal w s.heap + wsum w (allGiven ops) := by
  induction ops with
  | nil => intro b fuel _ s M H; exact ⟨s, rfl, H, fun w => by simp [allReturned, allGiven, wsum]⟩
  | cons op ops ih =>
    intro b fuel hf s M H
    simp at hf
    obtain ⟨s1, h1, h2, h3⟩ := step_spec key hq replace (fuel := fuel) (by omega) H op
    obtain ⟨s2, k1, k2, k3⟩ := ih (b := b + 1) (fuel := fuel) (by omega) h2
    refine ⟨s2, by simp [run, h1, k1, lrun], by simp only [lrun, List.length_cons]; exact k2.weaken (by omega), fun w => ?_⟩
    have e1 := h3 w
    have e2 := k3 w
    simp [allReturned, allGiven, lrun, wsum_append] at e1 e2 ⊢
    omega

end Verif.BTree
