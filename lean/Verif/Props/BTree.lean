import Verif.BTree.Steps
import Mathlib.Data.Nat.Basic

/-! Properties C28, C29, C30 and C55. -/
namespace Verif.Props.BTree
open Verif.BTree
variable {α κ : Type} [LinearOrder κ]

/-! ### C28: a set is a set, a map is a map -/

/-- `l` is the contents of the set or map `m` in order. -/
def Lists (key : α → κ) (m : κ → Option α) (l : List α) : Prop :=
  l.Pairwise (fun x y => key x < key y) ∧ ∀ k x, m k = some x ↔ x ∈ l ∧ key x = k

/-- `m` with `v` stored under its key. -/
def put (key : α → κ) (m : κ → Option α) (v : α) : κ → Option α := fun k => if k = key v then some v else m k

/-- What users expect from one operation on variables that hold sets (`replace = false`) or maps (`replace = true`). -/
inductive Answers (key : α → κ) (replace : Bool) : List (Option (κ → Option α)) → Op α κ → Res α → List (Option (κ → Option α)) → Prop where
  | new (D) : Answers key replace D .new .unit (D ++ [some fun _ => none])
  | clone {D i m} : D[i]? = some (some m) → Answers key replace D (.clone i) .unit (D ++ [some m])
  | fresh {D i m v} : D[i]? = some (some m) → m (key v) = none → Answers key replace D (.insert i v) (.elem none) (D.set i (some (put key m v)))
  | replaced {D i m v x} : D[i]? = some (some m) → m (key v) = some x → replace = true →
      Answers key replace D (.insert i v) (.elem (some x)) (D.set i (some (put key m v)))
  | rejected {D i m v x} : D[i]? = some (some m) → m (key v) = some x → replace = false → Answers key replace D (.insert i v) (.elem (some v)) D
  | get {D i m k} : D[i]? = some (some m) → Answers key replace D (.get i k) (.elem (m k)) D
  | len {D i m l} : D[i]? = some (some m) → Lists key m l → Answers key replace D (.len i) (.count l.length) D
  | isEmpty {D i m b} : D[i]? = some (some m) → (b = true ↔ ∀ k, m k = none) → Answers key replace D (.isEmpty i) (.flag b) D
  | visit {D i m l} : D[i]? = some (some m) → Lists key m l → Answers key replace D (.visit i) (.list l) D
  | drop {D i m} : D[i]? = some (some m) → Answers key replace D (.drop i) .unit (D.set i none)
  | gone {D i op} : (D[i]?).join = none → (op = .clone i ∨ (∃ v, op = .insert i v) ∨ (∃ k, op = .get i k) ∨ op = .len i ∨ op = .isEmpty i ∨ op = .visit i ∨ op = .drop i) →
      Answers key replace D op .unit D

/-- A history with its answers. -/
inductive History (key : α → κ) (replace : Bool) : List (Option (κ → Option α)) → List (Op α κ) → List (Res α) → List (Option (κ → Option α)) → Prop where
  | nil (D) : History key replace D [] [] D
  | cons {D D' D'' op ops r rs} : Answers key replace D op r D' → History key replace D' ops rs D'' → History key replace D (op :: ops) (r :: rs) D''

/-- Contents by key. -/
def dicts (key : α → κ) (M : List (Option (List α))) : List (Option (κ → Option α)) := M.map (Option.map (look key))

def AllSorted (key : α → κ) (M : List (Option (List α))) : Prop := ∀ (i : Nat) (l : List α), M[i]? = some (some l) → Sorted key l

theorem lists_look (key : α → κ) {l : List α} (h : Sorted key l) : Lists key (look key l) l := by
  refine ⟨h, fun k x => ?_⟩
  induction l with
  | nil => simp [look]
  | cons y l ih =>
    obtain ⟨h1, h2⟩ := List.pairwise_cons.mp h
    have hi := ih h2
    by_cases e : key y = k
    · have : look key (y :: l) k = some y := by rw [← e]; exact look_hit key l y
      rw [this]
      constructor
      · intro hx; cases hx; exact ⟨by simp, e⟩
      · rintro ⟨hx, hk⟩
        rcases List.mem_cons.mp hx with hx | hx
        · rw [hx]
        · have := h1 x hx
          rw [e, hk] at this
          exact absurd this (lt_irrefl k)
    · have : look key (y :: l) k = look key l k := by simp [look, e]
      rw [this, hi]
      constructor
      · rintro ⟨hx, hk⟩; exact ⟨by simp [hx], hk⟩
      · rintro ⟨hx, hk⟩
        rcases List.mem_cons.mp hx with hx | hx
        · rw [hx] at hk; exact absurd hk e
        · exact ⟨hx, hk⟩

theorem dict_get (key : α → κ) {M : List (Option (List α))} {i : Nat} {l : List α} (h : M[i]? = some (some l)) :
    (dicts key M)[i]? = some (some (look key l)) := by simp [dicts, h]

theorem dict_gone (key : α → κ) {M : List (Option (List α))} {i : Nat} (h : (M[i]?).join = none) : ((dicts key M)[i]?).join = none := by
  simp only [dicts, List.getElem?_map]
  cases hm : M[i]? with
  | none => rfl
  | some x => rw [hm] at h; simp at h; simp [h]

theorem join_cases (M : List (Option (List α))) (i : Nat) : (M[i]?).join = none ∨ ∃ l, M[i]? = some (some l) := by
  cases hm : M[i]? with
  | none => exact Or.inl rfl
  | some x =>
    cases x with
    | none => exact Or.inl rfl
    | some l => exact Or.inr ⟨l, rfl⟩

theorem lstep_answers (key : α → κ) (replace : Bool) {M : List (Option (List α))} (hs : AllSorted key M) (op : Op α κ) :
    Answers key replace (dicts key M) op (lstep key replace M op).1 (dicts key (lstep key replace M op).2) ∧ AllSorted key (lstep key replace M op).2 := by
  cases op with
  | new =>
    refine ⟨?_, fun i l hl => ?_⟩
    · have : dicts key (lstep key replace M .new).2 = dicts key M ++ [some fun _ => none] := by
        simp only [lstep, dicts, List.map_append, List.map_cons, List.map_nil, Option.map_some]
        rfl
      rw [this]; exact .new _
    · simp only [lstep, List.getElem?_append] at hl
      split at hl
      · exact hs i l hl
      · cases hk : i - M.length with
        | zero => rw [hk] at hl; simp at hl; subst hl; simp [Sorted]
        | succ => rw [hk] at hl; simp at hl
  | clone i =>
    rcases join_cases M i with h | ⟨l, h⟩
    · simp only [lstep, h]
      exact ⟨.gone (dict_gone key h) (Or.inl rfl), hs⟩
    · simp only [lstep, h, Option.join_some]
      refine ⟨?_, fun j l' hl => ?_⟩
      · have := Answers.clone (replace := replace) (key := key) (dict_get key h)
        simpa [dicts] using this
      · simp only [List.getElem?_append] at hl
        split at hl
        · exact hs j l' hl
        · cases hk : j - M.length with
          | zero => rw [hk] at hl; simp at hl; subst hl; exact hs i l h
          | succ => rw [hk] at hl; simp at hl
  | insert i v =>
    rcases join_cases M i with h | ⟨l, h⟩
    · simp only [lstep, h]
      exact ⟨.gone (dict_gone key h) (Or.inr (Or.inl ⟨v, rfl⟩)), hs⟩
    · have hd := dict_get key h
      have hset : dicts key (M.set i (some (ins key v l).2)) = (dicts key M).set i (some (put key (look key l) v)) := by
        simp only [dicts, List.map_set, Option.map_some]
        congr 2
        funext k
        exact look_ins key v (hs i l h) k
      have hsort : AllSorted key (M.set i (some (ins key v l).2)) := by
        intro j l' hl
        rw [List.getElem?_set] at hl
        split at hl
        · split at hl
          · simp at hl; subst hl; exact ins_sorted key v (hs i l h)
          · simp at hl
        · exact hs j l' hl
      simp only [lstep, h, Option.join_some, ins_fst key v (hs i l h)]
      cases hx : look key l (key v) with
      | none =>
        rw [if_pos (by simp)]
        refine ⟨?_, hsort⟩
        simp only [hset]
        exact .fresh hd hx
      | some x =>
        cases replace with
        | true =>
          rw [if_pos (by simp)]
          refine ⟨?_, hsort⟩
          simp only [hset]
          exact .replaced hd hx rfl
        | false =>
          rw [if_neg (by simp)]
          exact ⟨.rejected hd hx rfl, hs⟩
  | get i k =>
    rcases join_cases M i with h | ⟨l, h⟩
    · simp only [lstep, h]
      exact ⟨.gone (dict_gone key h) (Or.inr (Or.inr (Or.inl ⟨k, rfl⟩))), hs⟩
    · simp only [lstep, h, Option.join_some]
      exact ⟨.get (dict_get key h), hs⟩
  | len i =>
    rcases join_cases M i with h | ⟨l, h⟩
    · simp only [lstep, h]
      exact ⟨.gone (dict_gone key h) (by simp), hs⟩
    · simp only [lstep, h, Option.join_some]
      exact ⟨.len (dict_get key h) (lists_look key (hs i l h)), hs⟩
  | isEmpty i =>
    rcases join_cases M i with h | ⟨l, h⟩
    · simp only [lstep, h]
      exact ⟨.gone (dict_gone key h) (by simp), hs⟩
    · simp only [lstep, h, Option.join_some]
      refine ⟨.isEmpty (dict_get key h) ?_, hs⟩
      cases l with
      | nil => simp [look]
      | cons y l =>
        simp only [List.isEmpty_cons, Bool.false_eq_true, false_iff]
        intro hall
        have := hall (key y)
        rw [look_hit] at this
        cases this
  | visit i =>
    rcases join_cases M i with h | ⟨l, h⟩
    · simp only [lstep, h]
      exact ⟨.gone (dict_gone key h) (by simp), hs⟩
    · simp only [lstep, h, Option.join_some]
      exact ⟨.visit (dict_get key h) (lists_look key (hs i l h)), hs⟩
  | drop i =>
    rcases join_cases M i with h | ⟨l, h⟩
    · simp only [lstep, h]
      exact ⟨.gone (dict_gone key h) (by simp), hs⟩
    · simp only [lstep, h, Option.join_some]
      refine ⟨?_, fun j l' hl => ?_⟩
      · have := Answers.drop (replace := replace) (key := key) (dict_get key h)
        simpa [dicts, List.map_set] using this
      · rw [List.getElem?_set] at hl
        split at hl
        · split at hl <;> simp at hl
        · exact hs j l' hl

theorem lrun_history (key : α → κ) (replace : Bool) (ops : List (Op α κ)) {M : List (Option (List α))} (hs : AllSorted key M) :
    History key replace (dicts key M) ops (lrun key replace M ops).1 (dicts key (lrun key replace M ops).2) := by
  induction ops generalizing M with
  | nil => exact .nil _
  | cons op ops ih =>
    obtain ⟨h1, h2⟩ := lstep_answers key replace hs op
    exact .cons h1 (ih h2)

/-- C28: whatever the operations on any number of sets or maps with the capacity `2 * q + 1`, every answer is the one of mathematical sets or maps. -/
theorem C28_history (key : α → κ) {q : Nat} (hq : 1 ≤ q) (replace : Bool) (ops : List (Op α κ)) {fuel : Nat} (hf : ops.length ≤ fuel) :
    ∃ rs s D, run key ⟨replace, 2 * q + 1⟩ fuel St.new ops = some (rs, s) ∧ History key replace [] ops rs D := by
  obtain ⟨s, h1, h2, h3⟩ := run_spec key hq replace ops (b := 0) (fuel := fuel) (by omega) (Inv.new key q)
  exact ⟨_, s, _, h1, lrun_history key replace ops (M := []) (by intro i l h; simp at h)⟩

/-- The listing of a set is unique: `len` and iteration are determined by the answers of `get`. -/
theorem C28_listing_unique (key : α → κ) (m : κ → Option α) {l l' : List α} (h : Lists key m l) (h' : Lists key m l') : l = l' := by
  have hm : ∀ x, x ∈ l ↔ x ∈ l' := fun x => by
    have a := h.2 (key x) x
    have b := h'.2 (key x) x
    simp only [and_true] at a b
    rw [← a, ← b]
  have key' : ∀ (l l' : List α), l.Pairwise (fun x y => key x < key y) → l'.Pairwise (fun x y => key x < key y) → (∀ x, x ∈ l ↔ x ∈ l') → l = l' := by
    intro l
    induction l with
    | nil =>
      intro l' _ _ hm
      cases l' with
      | nil => rfl
      | cons y l' => exact absurd ((hm y).mpr (by simp)) (by simp)
    | cons x l ih =>
      intro l' p p' hm
      cases l' with
      | nil => exact absurd ((hm x).mp (by simp)) (by simp)
      | cons y l' =>
        obtain ⟨p1, p2⟩ := List.pairwise_cons.mp p
        obtain ⟨p1', p2'⟩ := List.pairwise_cons.mp p'
        have hxy : x = y := by
          rcases List.mem_cons.mp ((hm x).mp (by simp)) with e | e
          · exact e
          · rcases List.mem_cons.mp ((hm y).mpr (by simp)) with e' | e'
            · exact e'.symm
            · exact absurd (lt_trans (p1 y e') (p1' x e)) (lt_irrefl _)
        subst hxy
        rw [ih l' p2 p2' fun z => ?_]
        constructor
        · intro hz
          rcases List.mem_cons.mp ((hm z).mp (by simp [hz])) with e | e
          · subst e; exact absurd (p1 z hz) (lt_irrefl _)
          · exact e
        · intro hz
          rcases List.mem_cons.mp ((hm z).mpr (by simp [hz])) with e | e
          · subst e; exact absurd (p1' z hz) (lt_irrefl _)
          · exact e
  exact key' l l' h.1 h'.1 hm

/-! ### C29: clones are independent -/

/-- The operation does not change variable `j`. -/
def Spares (j : Nat) : Op α κ → Prop
  | .insert i _ => i ≠ j
  | .drop i => i ≠ j
  | _ => True

/-- The operation only looks at variable `j`. -/
def Asks (j : Nat) : Op α κ → Prop
  | .get i _ => i = j
  | .len i => i = j
  | .isEmpty i => i = j
  | .visit i => i = j
  | _ => False

theorem lrun_append (key : α → κ) (replace : Bool) (ops ops' : List (Op α κ)) (M : List (Option (List α))) :
    lrun key replace M (ops ++ ops') = ((lrun key replace M ops).1 ++ (lrun key replace (lrun key replace M ops).2 ops').1,
      (lrun key replace (lrun key replace M ops).2 ops').2) := by
  induction ops generalizing M with
  | nil => rfl
  | cons op ops ih => simp [lrun, ih]

theorem lstep_spares (key : α → κ) (replace : Bool) {j : Nat} {l : List α} {op : Op α κ} (hop : Spares j op) {M : List (Option (List α))}
    (h : M[j]? = some (some l)) : (lstep key replace M op).2[j]? = some (some l) := by
  have hlt := (List.getElem?_eq_some_iff.mp h).1
  have happ : ∀ x, (M ++ [x])[j]? = some (some l) := fun x => by rw [List.getElem?_append_left hlt, h]
  have hset : ∀ i x, i ≠ j → (M.set i x)[j]? = some (some l) := fun i x hi => by rw [List.getElem?_set, if_neg hi, h]
  cases op with
  | new => exact happ _
  | clone i => simp only [lstep]; split; exact h; exact happ _
  | insert i v =>
    simp only [lstep]
    split
    · exact h
    · split
      · exact hset _ _ hop
      · exact h
  | get i k => simp only [lstep]; split <;> exact h
  | len i => simp only [lstep]; split <;> exact h
  | isEmpty i => simp only [lstep]; split <;> exact h
  | visit i => simp only [lstep]; split <;> exact h
  | drop i => simp only [lstep]; split; exact h; exact hset _ _ hop

theorem lrun_spares (key : α → κ) (replace : Bool) {j : Nat} {l : List α} (ops : List (Op α κ)) (hop : ∀ op ∈ ops, Spares j op) {M : List (Option (List α))}
    (h : M[j]? = some (some l)) : (lrun key replace M ops).2[j]? = some (some l) := by
  induction ops generalizing M with
  | nil => exact h
  | cons op ops ih => exact ih (fun o ho => hop o (by simp [ho])) (lstep_spares key replace (hop op (by simp)) h)

/-- C29: what a variable answers does not change by operations on others, whatever nodes they share. -/
theorem C29_clones_independent (key : α → κ) {q : Nat} (hq : 1 ≤ q) (replace : Bool) (ops others : List (Op α κ)) (j : Nat) (hspare : ∀ op ∈ others, Spares j op)
    (query : Op α κ) (hask : Asks j query) {fuel : Nat} (hf : ops.length + others.length + 1 ≤ fuel) :
    ∃ rs rs' s s' r r', run key ⟨replace, 2 * q + 1⟩ fuel St.new (ops ++ [query]) = some (rs ++ [r], s) ∧
      run key ⟨replace, 2 * q + 1⟩ fuel St.new (ops ++ others ++ [query]) = some (rs' ++ [r'], s') ∧ (r ≠ .unit → r' = r) := by
  obtain ⟨s, h1, _⟩ := run_spec key hq replace (ops ++ [query]) (b := 0) (fuel := fuel) (by simp; omega) (Inv.new key q)
  obtain ⟨s', h1', _⟩ := run_spec key hq replace (ops ++ others ++ [query]) (b := 0) (fuel := fuel) (by simp; omega) (Inv.new key q)
  rw [lrun_append] at h1
  rw [lrun_append, lrun_append] at h1'
  refine ⟨_, _, s, s', _, _, h1, h1', ?_⟩
  generalize (lrun key replace [] ops).2 = M
  intro hne
  rcases join_cases M j with h | ⟨l, h⟩
  · exfalso; apply hne
    cases query <;> simp only [Asks] at hask <;> subst hask <;> simp [lstep, h]
  · have h' := lrun_spares key replace others hspare h
    have e1 : (M[j]?).join = some l := by rw [h]; rfl
    have e2 : ((lrun key replace M others).2[j]?).join = some l := by rw [h']; rfl
    cases query <;> simp only [Asks] at hask <;> subst hask <;> simp [lstep, e1, e2]

/-! ### C30: in bounds and balanced -/

/-- The node at `a` is the root of a tree in which all leaves are at depth `d`, every node has less entries than its capacity `limit`, and nodes other than
the root are at least half full. -/
def Balanced (limit : Nat) (h : Heap α) : Bool → Nat → Option Addr → Prop
  | _, 0, o => o = none
  | root, d + 1, o => ∃ a n, o = some a ∧ h.look a = some n ∧ n.cells.length = limit ∧ n.len < limit ∧ (if root then 1 else limit / 2) ≤ n.len ∧
      (∀ i, i < n.len → ∃ e, n.cells[i]? = some (some e) ∧ Balanced limit h false d e.smaller) ∧ Balanced limit h false d n.greater

theorem reps_mem {P : Option Addr → List α → Prop} {es : List (Entry α)} {l : List α} (h : Reps P es l) {e : Entry α} (he : e ∈ es) : ∃ l', P e.smaller l' := by
  induction h with
  | nil => simp at he
  | cons hp _ ih =>
    rcases List.mem_cons.mp he with e | e
    · subst e; exact ⟨_, hp⟩
    · exact ih e

omit [LinearOrder κ] in
theorem balanced_of_rep {limit : Nat} {h : Heap α} (d : Nat) : ∀ {m : Nat} {o : Option Addr} {l : List α} (root : Bool), (if root then 1 else limit / 2) ≤ m →
    Rep limit h m d o l → Balanced limit h root d o := by
  induction d with
  | zero => intro m o l root _ H; exact H.1
  | succ d ih =>
    intro m o l root hm H
    obtain ⟨a, inner, es, le, lg, e, h1, h2, h3, h4, h5, h6, h7⟩ := H
    refine ⟨a, inner, e, h1, h2.size, by rw [h2.len]; exact h4, by rw [h2.len]; omega, fun i hi => ?_, ih false (by simp) h6⟩
    rw [h2.len] at hi
    obtain ⟨rest, hc, _⟩ := h2.cells
    refine ⟨es[i], by rw [hc, List.getElem?_append_left (by simpa using hi)]; simp, ?_⟩
    obtain ⟨l', hl'⟩ := reps_mem h5 (List.getElem_mem hi)
    exact ih false (by simp) hl'

omit [LinearOrder κ] in
theorem rep_length {q : Nat} {h : Heap α} (d : Nat) : ∀ {m : Nat} {o : Option Addr} {l : List α}, Rep (2 * q + 1) h m (d + 1) o l →
    (m + 1) * (q + 1) ^ d ≤ l.length + 1 := by
  have hdiv : (2 * q + 1) / 2 = q := by omega
  have base : ∀ (d : Nat), (∀ {o : Option Addr} {l : List α}, Rep (2 * q + 1) h q d o l → (q + 1) ^ d ≤ l.length + 1) →
      ∀ {m : Nat} {o : Option Addr} {l : List α}, Rep (2 * q + 1) h m (d + 1) o l → (m + 1) * (q + 1) ^ d ≤ l.length + 1 := by
    intro d hchild m o l H
    obtain ⟨a, inner, es, le, lg, e, h1, h2, h3, h4, h5, h6, h7⟩ := H
    rw [hdiv] at h5 h6
    have hes : es.length * (q + 1) ^ d ≤ le.length := by
      clear h2 h3 h4 h7
      induction h5 with
      | nil => simp
      | cons hp _ ih =>
        have := hchild hp
        simp only [List.length_cons, List.length_append, Nat.add_mul, Nat.one_mul]
        omega
    have hg := hchild h6
    have hm : m * (q + 1) ^ d ≤ es.length * (q + 1) ^ d := Nat.mul_le_mul_right _ h3
    rw [h7, List.length_append, Nat.add_mul, Nat.one_mul]
    omega
  have child : ∀ (d : Nat) {o : Option Addr} {l : List α}, Rep (2 * q + 1) h q d o l → (q + 1) ^ d ≤ l.length + 1 := by
    intro d
    induction d with
    | zero => intro o l H; simp
    | succ d ih =>
      intro o l H
      have := base d ih H
      rw [Nat.pow_succ, Nat.mul_comm]
      exact this
  exact fun {m o l} H => base d (child d) H

/-- C30: no operation reads an uninitialised entry or leaves the array of a node (`run` has a result), and every tree is balanced: with depth `d` it has at
least `2 * (q + 1) ^ (d - 1) - 1` elements. -/
theorem C30_balanced_partial (key : α → κ) {q : Nat} (hq : 1 ≤ q) (replace : Bool) (ops : List (Op α κ)) {fuel : Nat} (hf : ops.length ≤ fuel) :
    ∃ rs s, run key ⟨replace, 2 * q + 1⟩ fuel St.new ops = some (rs, s) ∧
      ∀ i t a, s.var i = some t → t.root = some a → ∃ d size, Balanced (2 * q + 1) s.heap true (d + 1) (some a) ∧
        (∀ fuel', ops.length ≤ fuel' → nodeLen fuel' s.heap a = some size) ∧ 2 * (q + 1) ^ d ≤ size + 1 := by
  obtain ⟨s, h1, h2, h3⟩ := run_spec key hq replace ops (b := 0) (fuel := fuel) (by omega) (Inv.new key q)
  refine ⟨_, s, h1, fun i t a ht ha => ?_⟩
  rcases h2.var i with ⟨e, _⟩ | ⟨t', l, k1, k2, k3, k4, k5⟩
  · rw [ht] at e; cases e
  · rw [ht] at k2; cases k2
    simp only [ha] at k5
    obtain ⟨n, hn⟩ := k5
    refine ⟨n, l.length, balanced_of_rep _ true (by simp) hn, fun fuel' hf' => ?_, rep_length n hn⟩
    have b1 := hn.height_le hq _ (Nat.le_refl 1)
    have b2 := h2.bound i l k3
    exact nodeLen_spec (n + 1) fuel' 1 a l (by omega) hn

/-! ### C55: nothing is leaked, nothing is dropped twice -/

/-- The values in the live nodes. -/
def stored (h : Heap α) : List α := h.cells.flatMap fun c => match c with
  | some ⟨_, some n⟩ => (n.cells.take n.len).filterMap (Option.map (·.value))
  | _ => []

/-- The values given to `insert`, and those it returned. -/
def inserted (ops : List (Op α κ)) : List α := ops.filterMap fun op => match op with
  | .insert _ v => some v
  | _ => none
def handedBack (ops : List (Op α κ)) (rs : List (Res α)) : List α := (ops.zip rs).filterMap fun x => match x with
  | (.insert _ _, .elem y) => y
  | (.insert _ v, .unit) => some v
  | _ => none

omit [LinearOrder κ] in
theorem held_count [DecidableEq α] (h : Heap α) (x : α) : held (fun y => if y = x then 1 else 0) h = (stored h).count x := by
  have hw : ∀ l : List α, wsum (fun y => if y = x then 1 else 0) l = l.count x := by
    intro l
    induction l with
    | nil => rfl
    | cons y l ih => simp only [wsum, List.map_cons, List.sum_cons, List.count_cons] at ih ⊢; rw [ih]; split <;> simp_all <;> omega
  unfold held stored
  induction h.cells with
  | nil => rfl
  | cons c cs ih =>
    rw [List.map_cons, List.sum_cons, ih, List.flatMap_cons, List.count_append, hw]
    congr 2
    cases c with
    | none => rfl
    | some c =>
      obtain ⟨s, i⟩ := c
      cases i with
      | none => rfl
      | some n =>
        simp only [cellVals, vals, eVals, live, List.map_filterMap]
        rfl

omit [LinearOrder κ] in
theorem wsum_count [DecidableEq α] (l : List α) (x : α) : wsum (fun y => if y = x then 1 else 0) l = l.count x := by
  induction l with
  | nil => rfl
  | cons y l ih => simp only [wsum, List.map_cons, List.sum_cons, List.count_cons] at ih ⊢; rw [ih]; split <;> simp_all <;> omega

omit [LinearOrder κ] in
theorem inserted_eq (ops : List (Op α κ)) : allGiven ops = inserted ops := by
  induction ops with
  | nil => rfl
  | cons op ops ih =>
    simp only [allGiven, inserted, List.flatMap_cons, List.filterMap_cons] at ih ⊢
    cases op <;> simp [given, ih]

omit [LinearOrder κ] in
theorem handedBack_eq (ops : List (Op α κ)) (rs : List (Res α)) : allReturned ops rs = handedBack ops rs := by
  unfold allReturned handedBack
  induction ops.zip rs with
  | nil => rfl
  | cons x xs ih =>
    obtain ⟨op, r⟩ := x
    simp only [List.flatMap_cons, List.filterMap_cons, ih]
    cases op <;> cases r <;> simp [returned]
    rename_i y
    cases y <;> rfl

/-- C55: after any history, the values in nodes, those dropped and those handed back are, with multiplicity, those inserted and the clones made of them:
no value is lost, none is dropped twice. -/
theorem C55_ledger [DecidableEq α] (key : α → κ) {q : Nat} (hq : 1 ≤ q) (replace : Bool) (ops : List (Op α κ)) {fuel : Nat} (hf : ops.length ≤ fuel) :
    ∃ rs s, run key ⟨replace, 2 * q + 1⟩ fuel St.new ops = some (rs, s) ∧
      ∀ x, (stored s.heap).count x + s.heap.dropped.count x + (handedBack ops rs).count x = (inserted ops).count x + s.heap.cloned.count x := by
  obtain ⟨s, h1, h2, h3⟩ := run_spec key hq replace ops (b := 0) (fuel := fuel) (by omega) (Inv.new key q)
  refine ⟨_, s, h1, fun x => ?_⟩
  have := h3 fun y => if y = x then 1 else 0
  have e0 : bal (fun y => if y = x then 1 else 0) (St.new : St α).heap = 0 := rfl
  rw [inserted_eq, handedBack_eq, e0] at this
  simp only [bal, held_count, wsum_count] at this
  omega

/-- `b` can be reached from `a`. -/
inductive Reaches (h : Heap α) : Addr → Addr → Prop where
  | refl (a) : Reaches h a a
  | entry {a b c n e} {i : Nat} : Reaches h a b → h.look b = some n → i < n.len → n.cells[i]? = some (some e) → e.smaller = some c → Reaches h a c
  | greater {a b c n} : Reaches h a b → h.look b = some n → n.greater = some c → Reaches h a c

omit [LinearOrder κ] in
theorem rep_height {limit : Nat} {h : Heap α} (k : Nat) : ∀ {m m' k' : Nat} {a : Addr} {l l' : List α}, Rep limit h m k (some a) l → Rep limit h m' k' (some a) l' → k = k' := by
  induction k with
  | zero => intro m m' k' a l l' H; simp [Rep] at H
  | succ k ih =>
    intro m m' k' a l l' H H'
    obtain ⟨n1, i1, es1, _, lg, e1, a1, _, _, _, _, a6, _⟩ := H.of_some
    obtain ⟨n2, i2, es2, _, lg', e2, b1, _, _, _, _, b6, _⟩ := H'.of_some
    rw [a1] at b1
    cases b1
    cases e1
    cases hg : i1.greater with
    | none =>
      rw [hg] at a6 b6
      have := a6.of_none.1
      have := b6.of_none.1
      omega
    | some g =>
      rw [hg] at a6 b6
      have := ih a6 b6
      omega

omit [LinearOrder κ] in
theorem handles_step {limit : Nat} {h : Heap α} {a b c : Addr} {n : Inner α} {es : List (Entry α)} (hi : Is limit n es) (hr : Reaches h a b) (hl : h.look b = some n)
    (hc : c ∈ handles n) : Reaches h a c := by
  rw [handles_eq hi, eHandles] at hc
  rcases List.mem_append.mp hc with hc | hc
  · obtain ⟨e, he, hs⟩ := List.mem_filterMap.mp hc
    obtain ⟨i, hi', rfl⟩ := List.getElem_of_mem he
    obtain ⟨rest, hcells, _⟩ := hi.cells
    exact .entry hr hl (by rw [hi.len]; exact hi') (by rw [hcells, List.getElem?_append_left (by simpa using hi')]; simp) hs
  · cases hg : n.greater with
    | none => rw [hg] at hc; simp at hc
    | some g => rw [hg] at hc; simp at hc; subst hc; exact .greater hr hl hg

omit [LinearOrder κ] in
theorem child_height {limit : Nat} {h : Heap α} {b c : Addr} {n : Inner α} {m k : Nat} {l : List α} (hr : Rep limit h m k (some b) l) (hl : h.look b = some n)
    (hc : c ∈ handles n) : ∃ k' m' l', k = k' + 1 ∧ Rep limit h m' k' (some c) l' ∧ ∃ es, Is limit n es := by
  obtain ⟨k', i1, es, _, lg, rfl, a1, a2, _, _, a5, a6, _⟩ := hr.of_some
  rw [hl] at a1
  cases a1
  rw [handles_eq a2, eHandles] at hc
  rcases List.mem_append.mp hc with hc | hc
  · obtain ⟨e, he, hs⟩ := List.mem_filterMap.mp hc
    obtain ⟨l', hl'⟩ := reps_mem a5 he
    rw [hs] at hl'
    exact ⟨k', _, l', rfl, hl', es, a2⟩
  · cases hg : n.greater with
    | none => rw [hg] at hc; simp at hc
    | some g => rw [hg] at hc a6; simp at hc; subst hc; exact ⟨k', _, lg, rfl, a6, es, a2⟩

omit [LinearOrder κ] in
open Classical in
theorem reached {limit : Nat} {h : Heap α} {R : List Addr} (H : RC h R) (hall : AllRep limit h []) {b : Addr} {c : Cell α} (hb : h.cell b = some c) :
    ∃ a ∈ R, Reaches h a b := by
  let ht : Addr → Nat := fun a => if hx : ∃ k m l, Rep limit h m k (some a) l then Classical.choose hx else 0
  have hht : ∀ a k m l, Rep limit h m k (some a) l → ht a = k := by
    intro a k m l hr
    have hx : ∃ k m l, Rep limit h m k (some a) l := ⟨k, m, l, hr⟩
    simp only [ht, dif_pos hx]
    obtain ⟨m', l', hr'⟩ := Classical.choose_spec hx
    exact rep_height _ hr' hr
  let B := ((List.range h.cells.length).map ht).sum
  have hB : ∀ a c k m l, h.cell a = some c → Rep limit h m k (some a) l → k ≤ B := by
    intro a c k m l hc hr
    rw [← hht a k m l hr]
    have : ∀ (xs : List Nat) (x : Nat), x ∈ xs → x ≤ xs.sum := by
      intro xs
      induction xs with
      | nil => simp
      | cons y ys ih =>
        intro x hx
        rcases List.mem_cons.mp hx with e | e
        · subst e; simp
        · have := ih x e; simp; omega
    exact this _ _ (List.mem_map.mpr ⟨a, List.mem_range.mpr (cell_lt hc), rfl⟩)
  have main : ∀ (d : Nat) (b : Addr) (c : Cell α) (k m : Nat) (l : List α), h.cell b = some c → Rep limit h m k (some b) l → B ≤ k + d → ∃ a ∈ R, Reaches h a b := by
    intro d
    induction d with
    | zero =>
      intro b c k m l hb hr hd
      have hc := H.count b
      rw [strongOf_cell hb] at hc
      have hp := H.pos b c hb
      by_cases hR : b ∈ R
      · exact ⟨b, hR, .refl b⟩
      · rw [List.count_eq_zero.mpr hR] at hc
        obtain ⟨x, n, hx, hm⟩ := refsTo_pos.mp (show 0 < refsTo h b by omega)
        obtain ⟨s, hxc⟩ := look_cell hx
        rcases hall x _ hxc with e | ⟨m', k', l', hr'⟩
        · simp at e
        · obtain ⟨k'', m'', l'', e1, e2, _⟩ := child_height hr' hx hm
          have e3 := rep_height _ hr e2
          have e4 := hB x _ k' m' l' hxc hr'
          omega
    | succ d ih =>
      intro b c k m l hb hr hd
      have hc := H.count b
      rw [strongOf_cell hb] at hc
      have hp := H.pos b c hb
      by_cases hR : b ∈ R
      · exact ⟨b, hR, .refl b⟩
      · rw [List.count_eq_zero.mpr hR] at hc
        obtain ⟨x, n, hx, hm⟩ := refsTo_pos.mp (show 0 < refsTo h b by omega)
        obtain ⟨s, hxc⟩ := look_cell hx
        rcases hall x _ hxc with e | ⟨m', k', l', hr'⟩
        · simp at e
        · obtain ⟨k'', m'', l'', e1, e2, es, e5⟩ := child_height hr' hx hm
          have e3 := rep_height _ hr e2
          obtain ⟨a, ha, hra⟩ := ih x _ k' m' l' hxc hr' (by omega)
          exact ⟨a, ha, handles_step e5 hra hx hm⟩
  rcases hall b c hb with e | ⟨m, k, l, hr⟩
  · simp at e
  · exact main B b c k m l hb hr (by omega)

/-- C55: at any time every allocated node is reachable from a variable that has not been dropped. -/
theorem C55_no_leak (key : α → κ) {q : Nat} (hq : 1 ≤ q) (replace : Bool) (ops : List (Op α κ)) {fuel : Nat} (hf : ops.length ≤ fuel) :
    ∃ rs s, run key ⟨replace, 2 * q + 1⟩ fuel St.new ops = some (rs, s) ∧
      ∀ b c, s.heap.cell b = some c → ∃ i t a, s.var i = some t ∧ t.root = some a ∧ Reaches s.heap a b := by
  obtain ⟨s, h1, h2, h3⟩ := run_spec key hq replace ops (b := 0) (fuel := fuel) (by omega) (Inv.new key q)
  refine ⟨_, s, h1, fun b c hb => ?_⟩
  obtain ⟨a, ha, hr⟩ := reached h2.rc h2.all hb
  obtain ⟨t, ht, he⟩ := List.mem_filterMap.mp ha
  obtain ⟨i, hi⟩ := List.getElem?_of_mem ht
  cases t with
  | none => simp at he
  | some t => exact ⟨i, t, a, by simp [St.var, hi], he, hr⟩

/-- C55: once all sets are dropped no node is left, and every value that was inserted or cloned has been dropped or handed back exactly once. -/
theorem C55_all_dropped [DecidableEq α] (key : α → κ) {q : Nat} (hq : 1 ≤ q) (replace : Bool) (ops : List (Op α κ)) {fuel : Nat} (hf : ops.length ≤ fuel) :
    ∃ rs s, run key ⟨replace, 2 * q + 1⟩ fuel St.new ops = some (rs, s) ∧ ((∀ i, s.var i = none) →
      (∀ b, s.heap.cell b = none) ∧ ∀ x, s.heap.dropped.count x + (handedBack ops rs).count x = (inserted ops).count x + s.heap.cloned.count x) := by
  obtain ⟨rs, s, h1, h2⟩ := C55_no_leak key hq replace ops hf
  obtain ⟨rs', s', h1', h3⟩ := C55_ledger key hq replace ops hf
  rw [h1] at h1'
  cases h1'
  refine ⟨rs, s, h1, fun hv => ?_⟩
  have hnone : ∀ b, s.heap.cell b = none := by
    intro b
    cases hb : s.heap.cell b with
    | none => rfl
    | some c => obtain ⟨i, t, a, e, _⟩ := h2 b c hb; rw [hv] at e; cases e
  refine ⟨hnone, fun x => ?_⟩
  have hst : stored s.heap = [] := by
    unfold stored
    rw [List.flatMap_eq_nil_iff]
    intro c hc
    obtain ⟨i, hi⟩ := List.getElem?_of_mem hc
    have := hnone i
    simp only [Heap.cell, hi, Option.join_some] at this
    subst this
    rfl
  have := h3 x
  rw [hst] at this
  simpa using this

/-! ### Capacities that the constructors accept but the operations do not support -/

/-- Capacity 1 passes the check that it is odd; the first insertion panics and leaves the set without a valid allocator, so that dropping it is undefined behaviour. -/
theorem C30_capacity_one_refuted (key : α → κ) (replace : Bool) (v : α) (fuel : Nat) :
    1 % 2 ≠ 0 ∧ (run key ⟨replace, 1⟩ fuel St.new [.new, .insert 0 v]).map (·.1) = some [.unit, .panic] ∧
      (run key ⟨replace, 1⟩ fuel St.new [.new, .insert 0 v]).map (·.2.heap.dropped) = some [v] ∧
      run key ⟨replace, 1⟩ fuel St.new [.new, .insert 0 v, .drop 0] = none := ⟨by decide, rfl, rfl, rfl⟩

/-- An `AtomicArcBTreeSet` is made without that check.  With capacity 4 the fourth insertion reads beyond the entries of the
node, with capacity 2 the second. -/
theorem C30_even_capacity_refuted (replace : Bool) (fuel : Nat) :
    run (id : Nat → Nat) ⟨replace, 4⟩ (fuel + 1) St.new [.new, .insert 0 1, .insert 0 2, .insert 0 3] ≠ none ∧
      run (id : Nat → Nat) ⟨replace, 4⟩ (fuel + 1) St.new [.new, .insert 0 1, .insert 0 2, .insert 0 3, .insert 0 4] = none ∧
      (run (id : Nat → Nat) ⟨replace, 2⟩ (fuel + 1) St.new [.new, .insert 0 1]).map (·.1) = some [.unit, .elem none] ∧
      run (id : Nat → Nat) ⟨replace, 2⟩ (fuel + 1) St.new [.new, .insert 0 1, .insert 0 2] = none := by
  cases replace <;> exact ⟨(by intro h; cases h), rfl, rfl, rfl⟩

/-- A node without children. -/
def leaf (limit : Nat) (l : List α) : Inner α := ⟨l.map (fun v => some ⟨none, v⟩) ++ List.replicate (limit - l.length) none, l.length, none⟩

theorem leaf_entries (limit : Nat) (l : List α) (h : l.length ≤ limit) : entries (leaf limit l) = some (l.map fun v => ⟨none, v⟩) := by
  have e : (leaf limit l).cells.length = limit := by simp [leaf]; omega
  rw [entries, if_pos (by rw [e]; exact h)]
  have : (leaf limit l).cells.take (leaf limit l).len = (l.map fun v => (⟨none, v⟩ : Entry α)).map some := by
    simp [leaf, List.map_map, Function.comp_def]
  rw [this]
  generalize l.map (fun v => (⟨none, v⟩ : Entry α)) = es
  induction es with
  | nil => rfl
  | cons e es ih => rw [List.map_cons, List.mapM_cons, ih]; rfl

theorem leaf_scan (key : α → κ) (k : κ) (l : List α) (h : ∀ x ∈ l, key x < k) (i : Nat) :
    scan key k i (l.map fun v => ⟨none, v⟩) = .past := by
  induction l generalizing i with
  | nil => rfl
  | cons x l ih => rw [List.map_cons, scan, if_pos (h x (by simp))]; exact ih (fun y hy => h y (by simp [hy])) _

/-- The heap and the variable of a set whose only node is the leaf. -/
def leafSt (limit : Nat) (l : List α) : St α := ⟨⟨[some ⟨1, some (leaf limit l)⟩], [], []⟩, [some ⟨some 0, false⟩]⟩

theorem leaf_step (key : α → κ) (replace : Bool) (limit fuel : Nat) (l : List α) (v : α) (h : ∀ x ∈ l, key x < key v)
    (hl : l.length < limit) : step key ⟨replace, limit⟩ (fuel + 1) (leafSt limit l) (.insert 0 v) =
      if l.length + 1 < limit then some (.elem none, leafSt limit (l ++ [v]))
      else if limit % 2 = 0 then none else step key ⟨replace, limit⟩ (fuel + 1) (leafSt limit l) (.insert 0 v) := by
  have e1 := leaf_entries limit l (Nat.le_of_lt hl)
  have e2 := leaf_scan key (key v) l h 0
  have hg : get key (fuel + 1) (leafSt limit l).heap 0 (key v) = some none := by
    simp [BTree.get, leafSt, Heap.look, Heap.cell, e1, e2]
    simp [leaf]
  have hc : (leaf limit l).cells.length = limit := by simp [leaf]; omega
  have hpush (h' : Heap α) : push limit h' (leaf limit l) v none =
      if l.length + 1 < limit then some (h', leaf limit (l ++ [v]), .done none)
      else if limit % 2 = 0 then none else push limit h' (leaf limit l) v none := by
    split
    · rename_i hlt
      have hn : limit - l.length = limit - (l.length + 1) + 1 := by omega
      have hne : (leaf limit l).len + 1 ≠ limit := by simp only [leaf]; omega
      simp only [push, split, hc]
      rw [if_pos (show (leaf limit l).len < limit from hl)]
      simp only [if_neg hne]
      simp [leaf, hn, List.replicate_succ, List.set_append]
    · split
      · rename_i hge hev
        have heq : (leaf limit l).len + 1 = limit := by simp only [leaf]; omega
        simp only [push, hc]
        rw [if_pos (show (leaf limit l).len < limit from hl)]
        simp only [split, if_pos heq]
        cases hp : ((((leaf limit l).cells.set (leaf limit l).len (some ⟨(leaf limit l).greater, v⟩))[limit / 2]?).join) with
        | none => rfl
        | some pv =>
          have : ¬ (List.take (limit / 2) (List.drop (limit / 2 + 1) ((leaf limit l).cells.set (leaf limit l).len
              (some ⟨(leaf limit l).greater, v⟩)))).length = limit / 2 := by
            simp [hc]; omega
          simp only [Option.bind_eq_bind, Option.bind_some]
          rw [if_neg this]
      · rfl
  have hins (h' : Heap α) (hh : h' = (leafSt limit l).heap) : insertInner key limit (fuel + 1) h' 0 v =
      if l.length + 1 < limit then some ((leafSt limit (l ++ [v])).heap, 0, .done none)
      else if limit % 2 = 0 then none else insertInner key limit (fuel + 1) h' 0 v := by
    subst hh
    have hm : makeMut limit (fuel + 1) (leafSt limit l).heap 0 = some (⟨[some ⟨1, none⟩], [], []⟩, 0, leaf limit l) := by
      simp [makeMut, leafSt, Heap.cell, Heap.set]
    have hu : insertInner key limit (fuel + 1) (leafSt limit l).heap 0 v = do
        let (h, n, out) ← push limit ⟨[some ⟨1, none⟩], [], []⟩ (leaf limit l) v none
        return (← putBack h 0 n, 0, out) := by
      rw [insertInner, hm]
      simp [e1, e2]
      rfl
    split
    · rename_i hlt
      rw [hu, hpush, if_pos hlt]
      simp [putBack, Heap.cell, Heap.set, leafSt]
    · split
      · rename_i hge hev
        rw [hu, hpush, if_neg hge, if_pos hev]; rfl
      · rfl
  have hv : (leafSt limit l).var 0 = some ⟨some 0, false⟩ := rfl
  split
  · rename_i hlt
    have := hins _ rfl
    rw [if_pos hlt] at this
    cases replace <;> simp [step, hv, BTree.insert, nodeInsert, hg, this] <;> simp [leafSt]
  · split
    · rename_i hge hev
      have := hins _ rfl
      rw [if_neg hge, if_pos hev] at this
      cases replace <;> simp [step, hv, BTree.insert, nodeInsert, hg, this]
    · rfl

/-- With any even capacity of at least two, inserting as many values as the capacity, in order, is undefined behaviour, and not before. -/
theorem C30_even_capacities_refuted (key : α → κ) (replace : Bool) (q fuel : Nat) (hq : 1 ≤ q) (l : List α) (v : α)
    (hl : l.length + 1 = 2 * q) (hs : (l ++ [v]).Pairwise fun x y => key x < key y) :
    run key ⟨replace, 2 * q⟩ (fuel + 1) St.new (.new :: l.map (.insert 0)) ≠ none ∧
      run key ⟨replace, 2 * q⟩ (fuel + 1) St.new (.new :: (l ++ [v]).map (.insert 0)) = none := by
  have go (rest : List α) : ∀ (done : List α) (tail : List (Op α κ)), (done ++ rest).Pairwise (fun x y => key x < key y) → done.length + rest.length < 2 * q →
      ∃ rs, run key ⟨replace, 2 * q⟩ (fuel + 1) (leafSt (2 * q) done) (rest.map (.insert 0) ++ tail) =
        (run key ⟨replace, 2 * q⟩ (fuel + 1) (leafSt (2 * q) (done ++ rest)) tail).map fun p => (rs ++ p.1, p.2) := by
    induction rest with
    | nil => intro done tail _ _; exact ⟨[], by simp⟩
    | cons x rest ih =>
      intro done tail hp hlen
      simp only [List.length_cons] at hlen
      have hx : ∀ y ∈ done, key y < key x := fun y hy => (List.pairwise_append.1 hp).2.2 y hy x (by simp)
      have hst := leaf_step key replace (2 * q) fuel done x hx (by omega)
      rw [if_pos (by omega)] at hst
      obtain ⟨rs, hrs⟩ := ih (done ++ [x]) tail (by simpa using hp) (by simp; omega)
      refine ⟨.elem none :: rs, ?_⟩
      rw [List.map_cons, List.cons_append, run, hst]
      simp only [Option.bind_eq_bind, Option.bind_some, hrs]
      rw [show done ++ [x] ++ rest = done ++ x :: rest by simp]
      cases run key ⟨replace, 2 * q⟩ (fuel + 1) (leafSt (2 * q) (done ++ x :: rest)) tail <;> rfl
  have hfirst (x : α) : step key ⟨replace, 2 * q⟩ (fuel + 1) ⟨⟨[], [], []⟩, [some ⟨none, true⟩]⟩ (.insert 0 x) = some (.elem none, leafSt (2 * q) [x]) := by
    have : ¬ (2 * q - 1 ≤ 0) := by omega
    simp [step, St.var, BTree.insert, this, alloc, leafSt, leaf]
  have hnew : step key ⟨replace, 2 * q⟩ (fuel + 1) (St.new : St α) .new = some (.unit, ⟨⟨[], [], []⟩, [some ⟨none, true⟩]⟩) := rfl
  cases l with
  | nil => simp only [List.length_nil] at hl; omega
  | cons x l =>
    simp only [List.length_cons] at hl
    constructor
    · obtain ⟨rs, hrs⟩ := go l [x] [] (by
        have := hs.sublist (List.sublist_append_left (x :: l) [v]); simpa using this) (by simp; omega)
      rw [run, hnew]
      simp only [Option.bind_eq_bind, Option.bind_some, List.map_cons]
      rw [run, hfirst]
      simp only [Option.bind_eq_bind, Option.bind_some]
      rw [List.append_nil] at hrs
      rw [hrs]
      simp [run]
    · obtain ⟨rs, hrs⟩ := go l [x] [.insert 0 v] (by
        have := hs.sublist (List.sublist_append_left (x :: l) [v]); simpa using this) (by simp; omega)
      have hst := leaf_step key replace (2 * q) fuel (x :: l) v (fun y hy => (List.pairwise_append.1 hs).2.2 y hy v (by simp)) (by simp; omega)
      rw [if_neg (by simp; omega), if_pos (by omega)] at hst
      rw [run, hnew]
      simp only [Option.bind_eq_bind, Option.bind_some, List.map_cons, List.cons_append, List.map_append, List.map_nil]
      rw [run, hfirst]
      simp only [Option.bind_eq_bind, Option.bind_some, hrs]
      rw [List.cons_append, List.nil_append, run, hst]
      rfl
example : run (id : Nat → Nat) ⟨false, 6⟩ 1 St.new [.new, .insert 0 1, .insert 0 2, .insert 0 3, .insert 0 4, .insert 0 5, .insert 0 6] = none :=
  (C30_even_capacities_refuted id false 3 0 (by decide) [1, 2, 3, 4, 5] 6 rfl (by decide)).2

/-! ### Examples -/

/-- Two sets share nodes, then one of them splits a node and grows. -/
def example1 : List (Op Nat Nat) :=
  [.new, .insert 0 5, .insert 0 3, .clone 0, .insert 0 7, .insert 0 1, .insert 1 4, .len 0, .visit 0, .visit 1, .get 1 7, .insert 0 3, .drop 0, .visit 1, .drop 1]

example : (run id ⟨false, 3⟩ 15 St.new example1).map (·.1) = some [.unit, .elem none, .elem none, .unit, .elem none, .elem none, .elem none, .count 4, .list [1, 3, 5, 7],
    .list [3, 4, 5], .elem none, .elem (some 3), .unit, .list [3, 4, 5], .unit] := by decide +kernel

/-- A map: values are replaced. -/
example : (run (Prod.fst : Nat × Nat → Nat) ⟨true, 3⟩ 6 St.new [.new, .insert 0 (1, 10), .clone 0, .insert 0 (1, 11), .get 0 1, .get 1 1]).map (·.1) =
    some [.unit, .elem none, .unit, .elem (some (1, 10)), .elem (some (1, 11)), .elem (some (1, 10))] := by decide +kernel

end Verif.Props.BTree
