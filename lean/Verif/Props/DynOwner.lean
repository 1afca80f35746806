import Verif.Dyn.Owner

/-! C78: the pointer of a trait object and its vtable belong together. -/
namespace Verif.Props.DynOwner
open Verif.Dyn.Owner

/-- Points to the value `p`. -/
def pointsTo (p : Nat) (v : Var) : Bool := (ptrOf v).map (·.2) == some p

/-- How many variables point to the value `p`. -/
def refs (vars : List Var) (p : Nat) : Nat := vars.countP (pointsTo p)

/-- Memory is as it should be: every pointer is to a value of its kind, the strong counts are the numbers of pointers, and what was released has no
pointers to it. -/
structure Mem (s : St) : Prop where
  ptr : ∀ v ∈ s.vars, ∀ k p, ptrOf v = some (k, p) → ∃ c, s.cells[p]? = some c ∧ c.kind = k
  strong : ∀ (p : Nat) (c : Cell), s.cells[p]? = some c → c.strong = refs s.vars p
  freed : ∀ (p : Nat) (c : Cell), s.cells[p]? = some c → (c.freed = true ↔ refs s.vars p = 0)
  box : ∀ (p : Nat) (c : Cell), s.cells[p]? = some c → c.kind = .box → refs s.vars p ≤ 1
  dropped : ∀ (p : Nat) (c : Cell), s.cells[p]? = some c → c.dropped.length = if c.freed then 1 else 0

theorem getVar_mem {s : St} {i : Nat} {v : Var} (h : getVar s i = v) (hv : v ≠ .empty) : ∃ hi : i < s.vars.length, s.vars[i] = v := by
  unfold getVar at h
  rw [List.getD_eq_getElem?_getD] at h
  by_cases hi : i < s.vars.length
  · rw [List.getElem?_eq_getElem hi] at h; exact ⟨hi, h⟩
  · rw [List.getElem?_eq_none (by omega)] at h; exact absurd h.symm hv

theorem refs_append (vars : List Var) (v : Var) (p : Nat) : refs (vars ++ [v]) p = refs vars p + if pointsTo p v then 1 else 0 := by
  simp [refs, List.countP_append, List.countP_cons]

theorem refs_set {vars : List Var} {i : Nat} (hi : i < vars.length) (v : Var) (p : Nat) :
    refs (vars.set i v) p = refs vars p - (if pointsTo p vars[i] then 1 else 0) + if pointsTo p v then 1 else 0 := by
  unfold refs; rw [List.countP_set hi]

theorem refs_pos {vars : List Var} {i p : Nat} (hi : i < vars.length) (h : pointsTo p vars[i] = true) : 0 < refs vars p := by
  unfold refs; exact List.countP_pos_iff.2 ⟨_, List.getElem_mem hi, h⟩

theorem pointsTo_iff {p : Nat} {v : Var} {k : Kind} {q : Nat} (h : ptrOf v = some (k, q)) : pointsTo p v = true ↔ q = p := by
  simp [pointsTo, h]

theorem Mem.lt {s : St} (h : Mem s) {v : Var} (hv : v ∈ s.vars) {k : Kind} {p : Nat} (hp : ptrOf v = some (k, p)) : p < s.cells.length := by
  obtain ⟨c, hc, _⟩ := h.ptr v hv k p hp
  exact (List.getElem?_eq_some_iff.1 hc).1

theorem refs_fresh {s : St} (h : Mem s) : refs s.vars s.cells.length = 0 := by
  unfold refs
  rw [List.countP_eq_zero]
  intro v hv
  cases e : ptrOf v with
  | none => simp [pointsTo, e]
  | some x =>
    obtain ⟨k, p⟩ := x
    rw [pointsTo_iff e]
    have := h.lt hv e
    omega

theorem mem_alloc {s : St} (h : Mem s) (c : Cell) (v : Var) (hc : c.strong = 1) (hf : c.freed = false) (hd : c.dropped = [])
    (hv : ptrOf v = some (c.kind, s.cells.length)) (calls : List Call) : Mem ⟨s.cells ++ [c], s.vars ++ [v], calls⟩ := by
  have hr : ∀ p, refs (s.vars ++ [v]) p = refs s.vars p + if s.cells.length = p then 1 else 0 := by
    intro p; rw [refs_append]; simp only [pointsTo_iff hv]
  have hold : ∀ {p x}, (s.cells ++ [c])[p]? = some x → (p < s.cells.length ∧ s.cells[p]? = some x) ∨ (p = s.cells.length ∧ x = c) := by
    intro p x hx
    by_cases hp : p < s.cells.length
    · rw [List.getElem?_append_left hp] at hx; exact .inl ⟨hp, hx⟩
    · rw [List.getElem?_append_right (by omega)] at hx
      cases e : p - s.cells.length with
      | zero => rw [e] at hx; simp at hx; exact .inr ⟨by omega, hx.symm⟩
      | succ n => rw [e] at hx; simp at hx
  refine ⟨?_, ?_, ?_, ?_, ?_⟩
  · intro w hw k p hp
    rcases List.mem_append.1 hw with hw | hw
    · obtain ⟨x, hx, hk⟩ := h.ptr w hw k p hp
      exact ⟨x, by rw [List.getElem?_append_left (List.getElem?_eq_some_iff.1 hx).1]; exact hx, hk⟩
    · rw [List.mem_singleton] at hw
      subst hw
      rw [hv] at hp
      simp only [Option.some.injEq, Prod.mk.injEq] at hp
      obtain ⟨rfl, rfl⟩ := hp
      exact ⟨c, by simp, rfl⟩
  · intro p x hx
    dsimp only at hx ⊢; rw [hr]
    rcases hold hx with ⟨hp, hx⟩ | ⟨rfl, rfl⟩
    · rw [h.strong p x hx, if_neg (by omega), Nat.add_zero]
    · rw [refs_fresh h, hc, if_pos rfl]
  · intro p x hx
    dsimp only at hx ⊢; rw [hr]
    rcases hold hx with ⟨hp, hx⟩ | ⟨rfl, rfl⟩
    · rw [h.freed p x hx, if_neg (by omega), Nat.add_zero]
    · rw [hf]; simp
  · intro p x hx hk
    dsimp only at hx ⊢; rw [hr]
    rcases hold hx with ⟨hp, hx⟩ | ⟨rfl, rfl⟩
    · rw [if_neg (by omega), Nat.add_zero]; exact h.box p x hx hk
    · rw [refs_fresh h]; simp
  · intro p x hx
    dsimp only at hx
    rcases hold hx with ⟨hp, hx⟩ | ⟨rfl, rfl⟩
    · exact h.dropped p x hx
    · rw [hd, hf]; rfl

theorem mem_incr {s : St} (h : Mem s) {i p : Nat} {v : Var} (hi : getVar s i = v) (hv : ptrOf v = some (.arc, p)) (w : Var)
    (hw : ptrOf w = some (.arc, p)) (calls : List Call) : Mem ⟨incr s.cells p, s.vars ++ [w], calls⟩ := by
  have hne : v ≠ .empty := by intro e; subst e; simp [ptrOf] at hv
  obtain ⟨hil, hiv⟩ := getVar_mem hi hne
  have hmem : v ∈ s.vars := by rw [← hiv]; exact List.getElem_mem hil
  have hpos : 0 < refs s.vars p := refs_pos hil (by rw [hiv]; exact (pointsTo_iff hv).2 rfl)
  have hr : ∀ q, refs (s.vars ++ [w]) q = refs s.vars q + if p = q then 1 else 0 := by
    intro q; rw [refs_append]; simp only [pointsTo_iff hw]
  have hold : ∀ {q x}, (incr s.cells p)[q]? = some x → ∃ y, s.cells[q]? = some y ∧ x = if p = q then { y with strong := y.strong + 1 } else y := by
    intro q x hx
    rw [incr, List.getElem?_modify] at hx
    cases e : s.cells[q]? with
    | none => rw [e] at hx; simp at hx
    | some y => rw [e] at hx; simp only [Option.map_eq_map, Option.map_some, Option.some.injEq] at hx; exact ⟨y, rfl, hx.symm⟩
  refine ⟨?_, ?_, ?_, ?_, ?_⟩
  · intro u hu k q hq
    have key : ∃ c, s.cells[q]? = some c ∧ c.kind = k := by
      rcases List.mem_append.1 hu with hu | hu
      · exact h.ptr u hu k q hq
      · rw [List.mem_singleton] at hu; subst hu
        rw [hw] at hq
        exact h.ptr v hmem k q (by rw [hv]; exact hq)
    obtain ⟨c, hc, hk⟩ := key
    refine ⟨if p = q then { c with strong := c.strong + 1 } else c, ?_, ?_⟩
    · dsimp only; rw [incr, List.getElem?_modify, hc]; rfl
    · split <;> exact hk
  · intro q x hx
    obtain ⟨y, hy, rfl⟩ := hold hx
    dsimp only; rw [hr]
    split
    · dsimp only; rw [h.strong q y hy]
    · rw [h.strong q y hy, Nat.add_zero]
  · intro q x hx
    obtain ⟨y, hy, rfl⟩ := hold hx
    dsimp only; rw [hr]
    have := h.freed q y hy
    split
    · rename_i e; subst e
      dsimp only
      rw [this]; omega
    · rw [this, Nat.add_zero]
  · intro q x hx hk
    obtain ⟨y, hy, rfl⟩ := hold hx
    dsimp only; rw [hr]
    by_cases e : p = q
    · subst e
      obtain ⟨c, hc, hck⟩ := h.ptr v hmem _ _ hv
      rw [hy] at hc
      obtain rfl := Option.some.inj hc
      rw [if_pos rfl] at hk
      dsimp only at hk
      rw [hck] at hk
      exact absurd hk (by decide)
    · rw [if_neg e] at hk ⊢
      exact h.box q y hy hk
  · intro q x hx
    obtain ⟨y, hy, rfl⟩ := hold hx
    have := h.dropped q y hy
    split <;> exact this

theorem mem_decr {s : St} (h : Mem s) {i p : Nat} {k : Kind} {v : Var} (hi : getVar s i = v) (hv : ptrOf v = some (k, p)) (ty : Nat) (calls : List Call) :
    Mem ⟨s.cells.modify p (decr ty), s.vars.set i .empty, calls⟩ := by
  have hne : v ≠ .empty := by intro e; subst e; simp [ptrOf] at hv
  obtain ⟨hil, hiv⟩ := getVar_mem hi hne
  have hpos : 0 < refs s.vars p := refs_pos hil (by rw [hiv]; exact (pointsTo_iff hv).2 rfl)
  have hr : ∀ q, refs (s.vars.set i .empty) q = refs s.vars q - if p = q then 1 else 0 := by
    intro q; rw [refs_set hil, hiv]; simp only [pointsTo_iff hv]; simp [pointsTo, ptrOf]
  have hold : ∀ {q x}, (s.cells.modify p (decr ty))[q]? = some x → ∃ y, s.cells[q]? = some y ∧ x = if p = q then decr ty y else y := by
    intro q x hx
    rw [List.getElem?_modify] at hx
    cases e : s.cells[q]? with
    | none => rw [e] at hx; simp at hx
    | some y => rw [e] at hx; simp only [Option.map_eq_map, Option.map_some, Option.some.injEq] at hx; exact ⟨y, rfl, hx.symm⟩
  have hk : ∀ y, (decr ty y).kind = y.kind := by intro y; unfold decr; split <;> rfl
  refine ⟨?_, ?_, ?_, ?_, ?_⟩
  · intro u hu k' q hq
    have hu' : u ∈ s.vars := by
      rcases List.mem_or_eq_of_mem_set hu with hu | rfl
      · exact hu
      · simp [ptrOf] at hq
    obtain ⟨c, hc, hck⟩ := h.ptr u hu' k' q hq
    refine ⟨if p = q then decr ty c else c, ?_, ?_⟩
    · dsimp only; rw [List.getElem?_modify, hc]; rfl
    · split
      · rw [hk]; exact hck
      · exact hck
  · intro q x hx
    obtain ⟨y, hy, rfl⟩ := hold hx
    dsimp only; rw [hr]
    have := h.strong q y hy
    split
    · unfold decr; split <;> (dsimp only; rw [this])
    · rw [this, Nat.sub_zero]
  · intro q x hx
    obtain ⟨y, hy, rfl⟩ := hold hx
    dsimp only; rw [hr]
    have h1 := h.freed q y hy
    have h2 := h.strong q y hy
    have h3 := h.box q y hy
    split
    · rename_i e; subst e
      unfold decr
      split
      · rename_i hc
        dsimp only; rw [h1]; omega
      · rename_i hc
        dsimp only
        have : refs s.vars p = 1 := by
          by_cases hb : y.kind = .box
          · have := h3 hb; omega
          · have ha : y.kind = .arc := by cases e : y.kind <;> simp_all
            rw [← h2]
            by_cases h4 : y.strong = 1
            · exact h4
            · exact absurd ⟨ha, h4⟩ hc
        rw [this]; simp
    · rw [h1, Nat.sub_zero]
  · intro q x hx hb
    obtain ⟨y, hy, rfl⟩ := hold hx
    dsimp only; rw [hr]
    have : y.kind = .box := by
      split at hb
      · rwa [hk] at hb
      · exact hb
    have := h.box q y hy this
    omega
  · intro q x hx
    obtain ⟨y, hy, rfl⟩ := hold hx
    have h1 := h.freed q y hy
    have h4 := h.dropped q y hy
    split
    · rename_i e; subst e
      have hf : y.freed = false := by
        cases e : y.freed with
        | false => rfl
        | true => rw [e] at h1; simp at h1; omega
      rw [hf] at h4
      unfold decr
      split
      · dsimp only; rw [hf]; exact h4
      · dsimp only; rw [List.length_append, h4]; rfl
    · exact h4

theorem ptrOf_setPtr {v : Var} {k : Kind} {p : Nat} (h : ptrOf v = some (k, p)) (q : Nat) : ptrOf (setPtr v q) = some (k, q) := by
  cases v <;> simp_all [ptrOf, setPtr]

theorem mem_swap {s : St} (h : Mem s) {i j p q : Nat} {k : Kind} (hi : ptrOf (getVar s i) = some (k, p)) (hj : ptrOf (getVar s j) = some (k, q))
    (hij : i ≠ j) (calls : List Call) : Mem ⟨s.cells, (s.vars.set i (setPtr (getVar s i) q)).set j (setPtr (getVar s j) p), calls⟩ := by
  have hne : ∀ {v : Var} {x}, ptrOf v = some x → v ≠ .empty := by intro v x hv e; subst e; simp [ptrOf] at hv
  obtain ⟨hil, hiv⟩ := getVar_mem (s := s) (i := i) rfl (hne hi)
  obtain ⟨hjl, hjv⟩ := getVar_mem (s := s) (i := j) rfl (hne hj)
  have hr : ∀ r, refs ((s.vars.set i (setPtr (getVar s i) q)).set j (setPtr (getVar s j) p)) r = refs s.vars r := by
    intro r
    rw [refs_set (by rw [List.length_set]; exact hjl), refs_set hil, List.getElem_set_ne hij]
    rw [hiv, hjv]
    simp only [pointsTo_iff hi, pointsTo_iff hj, pointsTo_iff (ptrOf_setPtr hi q), pointsTo_iff (ptrOf_setPtr hj p)]
    have : p = r → 0 < refs s.vars r := by
      intro e; subst e; exact refs_pos hil (by rw [hiv]; exact (pointsTo_iff hi).2 rfl)
    by_cases e : p = r
    · have := this e
      by_cases e' : q = r <;> simp [e, e'] <;> omega
    · by_cases e' : q = r <;> simp [e, e']
  refine ⟨?_, fun x c hc => by dsimp only at hc ⊢; rw [hr]; exact h.strong x c hc, fun x c hc => by dsimp only at hc ⊢; rw [hr]; exact h.freed x c hc,
    fun x c hc => by dsimp only at hc ⊢; rw [hr]; exact h.box x c hc, fun x c hc => h.dropped x c hc⟩
  intro u hu k' r hp
  rcases List.mem_or_eq_of_mem_set hu with hu | rfl
  · rcases List.mem_or_eq_of_mem_set hu with hu | rfl
    · exact h.ptr u hu k' r hp
    · rw [ptrOf_setPtr hi] at hp
      exact h.ptr (getVar s j) (by rw [← hjv]; exact List.getElem_mem hjl) k' r (by rw [hj]; exact hp)
  · rw [ptrOf_setPtr hj] at hp
    exact h.ptr (getVar s i) (by rw [← hiv]; exact List.getElem_mem hil) k' r (by rw [hi]; exact hp)

theorem mem_calls {s : St} (h : Mem s) (calls : List Call) : Mem { s with calls := calls } := ⟨h.ptr, h.strong, h.freed, h.box, h.dropped⟩

theorem mem_step {s : St} (h : Mem s) (op : Op) : Mem (step s op) := by
  cases op with
  | make k ty => exact mem_alloc h ⟨k, ty, 1, false, []⟩ _ rfl rfl rfl rfl _
  | unit k => exact mem_alloc h ⟨k, 0, 1, false, []⟩ _ rfl rfl rfl rfl _
  | call i =>
    rw [step]
    split
    · exact mem_calls h _
    · exact h
  | clone i =>
    rw [step]
    split
    · rename_i e; exact mem_incr h e rfl _ rfl _
    · rename_i e; exact mem_incr h e rfl _ rfl _
    · exact h
  | clonePtr i =>
    rw [step]
    split
    · rename_i e; exact mem_incr h e rfl _ rfl _
    · exact h
  | swap i j =>
    rw [step]
    split
    · rename_i k p k' q e e'
      split
      · rename_i hk
        obtain ⟨rfl, hij⟩ := hk
        exact mem_swap h e e' hij _
      · exact h
    · exact h
  | drop i =>
    rw [step]
    split
    · rename_i e; exact mem_decr h e rfl _ _
    · rename_i e; exact mem_decr h e rfl _ _
    · exact h

theorem mem_new : Mem St.new := by
  refine ⟨fun v h => ?_, fun p c h => ?_, fun p c h => ?_, fun p c h => ?_, fun p c h => ?_⟩ <;> simp [St.new] at h

theorem mem_run (ops : List Op) : ∀ {s : St}, Mem s → Mem (run s ops) := by
  induction ops with
  | nil => intro s h; exact h
  | cons op ops ih => intro s h; exact ih (mem_step h op)

/-- Whatever safe code does with trait objects and the pointers inside of them, every value is released, and a destructor runs on it, exactly once, when
the last pointer to it goes; nothing that was released can be reached. -/
theorem C78_memory (ops : List Op) (p : Nat) (c : Cell) (h : (run St.new ops).cells[p]? = some c) :
    (c.freed = true ↔ ∀ v ∈ (run St.new ops).vars, ∀ k, ptrOf v ≠ some (k, p)) ∧ c.dropped.length = if c.freed then 1 else 0 := by
  have m := mem_run ops mem_new
  refine ⟨?_, m.dropped p c h⟩
  rw [m.freed p c h, refs, List.countP_eq_zero]
  constructor
  · intro hz v hv k e
    exact hz v hv ((pointsTo_iff e).2 rfl)
  · intro hz v hv e
    cases he : ptrOf v with
    | none => rw [pointsTo, he] at e; simp at e
    | some x =>
      obtain ⟨k, q⟩ := x
      obtain rfl := (pointsTo_iff he).1 e
      exact hz v hv k he

/-! ### Code and pointee -/

/-- For which type the vtable of a variable was made. -/
def tag : Var → Option Nat
  | .dyn _ _ vt => some vt
  | _ => none

/-- Pointers are only exchanged between objects made of the same type, or between plain pointers. -/
def Tame : St → List Op → Prop
  | _, [] => True
  | s, op :: ops => (∀ i j, op = .swap i j → tag (getVar s i) = tag (getVar s j)) ∧ Tame (step s op) ops

/-- Objects have the vtable of their value. -/
structure Matched (s : St) : Prop where
  vt : ∀ v ∈ s.vars, ∀ k p t, v = .dyn k p t → ∃ c, s.cells[p]? = some c ∧ c.ty = t
  calls : ∀ c ∈ s.calls, c.pointee = some c.fn

/-- Types of values do not change. -/
theorem ty_step {s : St} {op : Op} {p : Nat} {c : Cell} (h : s.cells[p]? = some c) : ∃ c', (step s op).cells[p]? = some c' ∧ c'.ty = c.ty := by
  have hin : ∀ q, ∃ c', (incr s.cells q)[p]? = some c' ∧ c'.ty = c.ty := by
    intro q
    refine ⟨if q = p then { c with strong := c.strong + 1 } else c, by rw [incr, List.getElem?_modify, h]; rfl, by split <;> rfl⟩
  have hde : ∀ q t, ∃ c', (s.cells.modify q (decr t))[p]? = some c' ∧ c'.ty = c.ty := by
    intro q t
    refine ⟨if q = p then decr t c else c, by rw [List.getElem?_modify, h]; rfl, ?_⟩
    split
    · unfold decr; split <;> rfl
    · rfl
  have hlt := (List.getElem?_eq_some_iff.1 h).1
  cases op with
  | make k ty => exact ⟨c, by rw [step]; dsimp only; rw [List.getElem?_append_left hlt]; exact h, rfl⟩
  | unit k => exact ⟨c, by rw [step]; dsimp only; rw [List.getElem?_append_left hlt]; exact h, rfl⟩
  | call i => rw [step]; split <;> exact ⟨c, h, rfl⟩
  | clone i =>
    rw [step]; split
    · exact hin _
    · exact hin _
    · exact ⟨c, h, rfl⟩
  | clonePtr i =>
    rw [step]; split
    · exact hin _
    · exact ⟨c, h, rfl⟩
  | swap i j =>
    rw [step]; split
    · split <;> exact ⟨c, h, rfl⟩
    · exact ⟨c, h, rfl⟩
  | drop i =>
    rw [step]; split
    · exact hde _ _
    · exact hde _ _
    · exact ⟨c, h, rfl⟩

theorem matched_step {s : St} (m : Mem s) (h : Matched s) (op : Op) (ht : ∀ i j, op = .swap i j → tag (getVar s i) = tag (getVar s j)) :
    Matched (step s op) := by
  have keep : ∀ {k p t}, Var.dyn k p t ∈ s.vars → ∃ c, (step s op).cells[p]? = some c ∧ c.ty = t := by
    intro k p t hv
    obtain ⟨c, hc, hty⟩ := h.vt _ hv k p t rfl
    obtain ⟨c', hc', hty'⟩ := ty_step (op := op) hc
    exact ⟨c', hc', by rw [hty', hty]⟩
  have vmem : ∀ {i v}, getVar s i = v → v ≠ .empty → v ∈ s.vars := by
    intro i v hi hv
    obtain ⟨hl, e⟩ := getVar_mem hi hv
    rw [← e]; exact List.getElem_mem hl
  constructor
  · intro v hv k p t hvt
    subst hvt
    cases op with
    | make k' ty =>
      rw [step] at hv
      rcases List.mem_append.1 hv with hv | hv
      · exact keep hv
      · rw [List.mem_singleton] at hv
        obtain ⟨rfl, rfl, rfl⟩ := Var.dyn.inj hv
        exact ⟨⟨k, t, 1, false, []⟩, by rw [step]; simp, rfl⟩
    | unit k' =>
      rw [step] at hv
      rcases List.mem_append.1 hv with hv | hv
      · exact keep hv
      · rw [List.mem_singleton] at hv; cases hv
    | call i =>
      refine keep (k := k) ?_
      rw [step] at hv; split at hv <;> exact hv
    | clone i =>
      rw [step] at hv
      split at hv
      · rename_i e
        rcases List.mem_append.1 hv with hv | hv
        · exact keep hv
        · rw [List.mem_singleton] at hv
          obtain ⟨rfl, rfl, rfl⟩ := Var.dyn.inj hv
          exact keep (vmem e (by simp))
      · rcases List.mem_append.1 hv with hv | hv
        · exact keep hv
        · rw [List.mem_singleton] at hv; cases hv
      · exact keep hv
    | clonePtr i =>
      rw [step] at hv
      split at hv
      · rcases List.mem_append.1 hv with hv | hv
        · exact keep hv
        · rw [List.mem_singleton] at hv; cases hv
      · exact keep hv
    | swap i j =>
      have htag := ht i j rfl
      have sub : ∀ {a b x y}, tag (getVar s a) = tag (getVar s b) → ptrOf (getVar s b) = some (x, y) → k = x → setPtr (getVar s a) y = .dyn k p t →
          Var.dyn k p t ∈ s.vars := by
        intro a b x y hab hb hk he
        subst hk
        cases ea : getVar s a with
        | empty => rw [ea] at he; simp [setPtr] at he
        | raw _ _ => rw [ea] at he; simp [setPtr] at he
        | dyn k' p' t' =>
          rw [ea] at he hab
          simp only [setPtr, Var.dyn.injEq] at he
          obtain ⟨rfl, rfl, rfl⟩ := he
          cases eb : getVar s b with
          | empty => rw [eb] at hb; simp [ptrOf] at hb
          | raw _ _ => rw [eb] at hab; simp [tag] at hab
          | dyn k2 p2 t2 =>
            rw [eb] at hb hab
            simp only [ptrOf, Option.some.injEq, Prod.mk.injEq] at hb
            simp only [tag, Option.some.injEq] at hab
            obtain ⟨rfl, rfl⟩ := hb
            subst hab
            exact vmem eb (by simp)
      have kindOf : ∀ {a y x z}, ptrOf (getVar s a) = some (x, z) → setPtr (getVar s a) y = .dyn k p t → k = x := by
        intro a y x z ha he
        cases ea : getVar s a with
        | empty => rw [ea] at he; simp [setPtr] at he
        | raw _ _ => rw [ea] at he; simp [setPtr] at he
        | dyn k' p' t' =>
          rw [ea] at ha he
          simp only [setPtr, Var.dyn.injEq] at he
          simp only [ptrOf, Option.some.injEq, Prod.mk.injEq] at ha
          rw [← he.1, ← ha.1]
      refine keep (k := k) ?_
      rw [step] at hv
      split at hv
      · rename_i k1 p1 k2 p2 e1 e2
        split at hv
        · rename_i hc
          obtain ⟨rfl, _⟩ := hc
          rcases List.mem_or_eq_of_mem_set hv with hv | hv
          · rcases List.mem_or_eq_of_mem_set hv with hv | hv
            · exact hv
            · exact sub htag e2 (kindOf e1 hv.symm) hv.symm
          · exact sub htag.symm e1 (kindOf e2 hv.symm) hv.symm
        · exact hv
      · exact hv
    | drop i =>
      refine keep (k := k) ?_
      rw [step] at hv
      split at hv
      · rcases List.mem_or_eq_of_mem_set hv with hv | hv
        · exact hv
        · cases hv
      · rcases List.mem_or_eq_of_mem_set hv with hv | hv
        · exact hv
        · cases hv
      · exact hv
  · intro c hc
    cases op with
    | call i =>
      rw [step] at hc
      split at hc
      · rename_i k p t e
        rcases List.mem_append.1 hc with hc | hc
        · exact h.calls c hc
        · rw [List.mem_singleton] at hc
          subst hc
          have hv := vmem e (by simp)
          obtain ⟨x, hx, hty⟩ := h.vt _ hv k p t rfl
          obtain ⟨hl, e'⟩ := getVar_mem e (by simp)
          have hf : x.freed = false := by
            cases ef : x.freed with
            | false => rfl
            | true =>
              have := (m.freed p x hx).1 ef
              have := refs_pos (p := p) hl (by rw [e']; exact (pointsTo_iff (k := k) rfl).2 rfl)
              omega
          dsimp only
          rw [hx]
          simp [hf, hty]
      · exact h.calls c hc
    | make _ _ => rw [step] at hc; exact h.calls c hc
    | unit _ => rw [step] at hc; exact h.calls c hc
    | clone _ => rw [step] at hc; split at hc <;> exact h.calls c hc
    | clonePtr _ => rw [step] at hc; split at hc <;> exact h.calls c hc
    | swap _ _ =>
      rw [step] at hc
      split at hc
      · split at hc <;> exact h.calls c hc
      · exact h.calls c hc
    | drop _ => rw [step] at hc; split at hc <;> exact h.calls c hc

theorem matched_run (ops : List Op) : ∀ {s : St}, Mem s → Matched s → Tame s ops → Matched (run s ops) := by
  induction ops with
  | nil => intro s _ h _; exact h
  | cons op ops ih => intro s m h ht; exact ih (mem_step m op) (matched_step m h op ht.1) ht.2

theorem matched_new : Matched St.new := by
  constructor
  · intro _ h; simp [St.new] at h
  · intro _ h; simp [St.new] at h

/-- If pointers are not exchanged with those of objects of other types, every call of a method runs the code of the type of the value behind
the object, and the value is alive. -/
theorem C78_calls_partial (ops : List Op) (h : Tame St.new ops) : ∀ c ∈ (run St.new ops).calls, c.pointee = some c.fn :=
  (matched_run ops mem_new matched_new h).calls

/-- Plain pointers are to `()`. -/
structure Owned (s : St) : Prop where
  vt : ∀ v ∈ s.vars, ∀ k p, ptrOf v = some (k, p) → ∃ c, s.cells[p]? = some c ∧ c.ty = (tag v).getD 0
  gone : ∀ (p : Nat) (c : Cell), s.cells[p]? = some c → c.freed = true → c.dropped = [c.ty]

/-- The pointers inside of objects are not copied. -/
def NoCopies (ops : List Op) : Prop := ∀ op ∈ ops, ∀ i, op ≠ .clonePtr i

theorem owned_step {s : St} (m : Mem s) (h : Owned s) (op : Op) (ht : ∀ i j, op = .swap i j → tag (getVar s i) = tag (getVar s j))
    (hn : ∀ i, op ≠ .clonePtr i) : Owned (step s op) := by
  have keep : ∀ {v k p}, v ∈ s.vars → ptrOf v = some (k, p) → ∃ c, (step s op).cells[p]? = some c ∧ c.ty = (tag v).getD 0 := by
    intro v k p hv hp
    obtain ⟨c, hc, hty⟩ := h.vt _ hv k p hp
    obtain ⟨c', hc', hty'⟩ := ty_step (op := op) hc
    exact ⟨c', hc', by rw [hty', hty]⟩
  have vmem : ∀ {i v}, getVar s i = v → v ≠ .empty → v ∈ s.vars := by
    intro i v hi hv
    obtain ⟨hl, e⟩ := getVar_mem hi hv
    rw [← e]; exact List.getElem_mem hl
  have hin : ∀ {q p : Nat} {x : Cell}, (incr s.cells q)[p]? = some x → x.freed = true → x.dropped = [x.ty] := by
    intro q p x hx hf
    rw [incr, List.getElem?_modify] at hx
    cases e : s.cells[p]? with
    | none => rw [e] at hx; simp at hx
    | some y =>
      rw [e] at hx
      simp only [Option.map_eq_map, Option.map_some, Option.some.injEq] at hx
      subst hx
      have := h.gone p y e
      split at hf
      · rename_i hq; rw [if_pos hq]; exact this hf
      · rename_i hq; rw [if_neg hq]; exact this hf
  have hde : ∀ {q p t : Nat} {x : Cell}, (∃ v ∈ s.vars, (∃ k, ptrOf v = some (k, q)) ∧ (tag v).getD 0 = t) → (s.cells.modify q (decr t))[p]? = some x → x.freed = true →
      x.dropped = [x.ty] := by
    intro q p t x ⟨v, hv, ⟨k, hp⟩, htg⟩ hx hf
    rw [List.getElem?_modify] at hx
    cases e : s.cells[p]? with
    | none => rw [e] at hx; simp at hx
    | some y =>
      rw [e] at hx
      simp only [Option.map_eq_map, Option.map_some, Option.some.injEq] at hx
      subst hx
      have hg := h.gone p y e
      by_cases hq : q = p
      · subst hq
        rw [if_pos rfl] at hf ⊢
        obtain ⟨c, hc, hty⟩ := h.vt v hv k q hp
        rw [e] at hc
        obtain rfl := Option.some.inj hc
        obtain ⟨i, hi, hiv⟩ := List.mem_iff_getElem.1 hv
        have hpos := refs_pos (p := q) hi (by rw [hiv]; exact (pointsTo_iff hp).2 rfl)
        have hnf : y.freed = false := by
          cases ef : y.freed with
          | false => rfl
          | true => have := (m.freed q y e).1 ef; omega
        have hd := m.dropped q y e
        rw [hnf] at hd
        have hd : y.dropped = [] := List.eq_nil_of_length_eq_zero hd
        unfold decr at hf ⊢
        split
        · rename_i hc'
          rw [if_pos hc'] at hf
          dsimp only at hf
          rw [hnf] at hf; exact absurd hf (by decide)
        · dsimp only
          rw [hd, hty, htg]; rfl
      · rw [if_neg hq] at hf ⊢; exact hg hf
  have app : ∀ {vs : List Var} {c' : Cell} {p : Nat} {x : Cell}, c'.freed = false → ((⟨s.cells ++ [c'], vs, s.calls⟩ : St).cells)[p]? = some x → x.freed = true → x.dropped = [x.ty] := by
    intro vs c' p x hc' hx hf
    dsimp only at hx
    by_cases hp : p < s.cells.length
    · rw [List.getElem?_append_left hp] at hx; exact h.gone p x hx hf
    · rw [List.getElem?_append_right (by omega)] at hx
      cases e : p - s.cells.length with
      | zero => rw [e] at hx; simp at hx; subst hx; rw [hc'] at hf; exact absurd hf (by decide)
      | succ n => rw [e] at hx; simp at hx
  constructor
  · intro v hv k p hp
    cases op with
    | make k' ty =>
      rw [step] at hv
      rcases List.mem_append.1 hv with hv | hv
      · exact keep hv hp
      · rw [List.mem_singleton] at hv
        subst hv
        simp only [ptrOf, Option.some.injEq, Prod.mk.injEq] at hp
        obtain ⟨rfl, rfl⟩ := hp
        exact ⟨⟨k', ty, 1, false, []⟩, by rw [step]; simp, rfl⟩
    | unit k' =>
      rw [step] at hv
      rcases List.mem_append.1 hv with hv | hv
      · exact keep hv hp
      · rw [List.mem_singleton] at hv
        subst hv
        simp only [ptrOf, Option.some.injEq, Prod.mk.injEq] at hp
        obtain ⟨rfl, rfl⟩ := hp
        exact ⟨⟨k', 0, 1, false, []⟩, by rw [step]; simp, rfl⟩
    | call i =>
      refine keep ?_ hp
      rw [step] at hv; split at hv <;> exact hv
    | clone i =>
      rw [step] at hv
      split at hv
      · rename_i e
        rcases List.mem_append.1 hv with hv | hv
        · exact keep hv hp
        · rw [List.mem_singleton] at hv
          subst hv
          exact keep (vmem e (by simp)) hp
      · rename_i e
        rcases List.mem_append.1 hv with hv | hv
        · exact keep hv hp
        · rw [List.mem_singleton] at hv
          subst hv
          exact keep (vmem e (by simp)) hp
      · exact keep hv hp
    | clonePtr i => exact absurd rfl (hn i)
    | swap i j =>
      have htag := ht i j rfl
      have tset : ∀ (w : Var) (y : Nat), tag (setPtr w y) = tag w := by intro w y; cases w <;> rfl
      have sub : ∀ {a b x y}, tag (getVar s a) = tag (getVar s b) → ptrOf (getVar s a) = some (k, x) → ptrOf (getVar s b) = some (k, y) →
          v = setPtr (getVar s a) y → ∃ c, (step s (.swap i j)).cells[p]? = some c ∧ c.ty = (tag v).getD 0 := by
        intro a b x y hab ha hb he
        subst he
        rw [ptrOf_setPtr ha] at hp
        simp only [Option.some.injEq, Prod.mk.injEq, true_and] at hp
        subst hp
        rw [tset, hab]
        refine keep (vmem rfl ?_) hb
        intro e; rw [e] at hb; simp [ptrOf] at hb
      rw [step] at hv
      split at hv
      · rename_i k1 p1 k2 p2 e1 e2
        split at hv
        · rename_i hc
          obtain ⟨rfl, _⟩ := hc
          rcases List.mem_or_eq_of_mem_set hv with hv | hv
          · rcases List.mem_or_eq_of_mem_set hv with hv | hv
            · exact keep hv hp
            · have hk : k1 = k := by rw [hv, ptrOf_setPtr e1] at hp; simp at hp; exact hp.1
              subst hk
              exact sub htag e1 e2 hv
          · have hk : k1 = k := by rw [hv, ptrOf_setPtr e2] at hp; simp at hp; exact hp.1
            subst hk
            exact sub htag.symm e2 e1 hv
        · exact keep hv hp
      · exact keep hv hp
    | drop i =>
      refine keep ?_ hp
      rw [step] at hv
      split at hv
      · rcases List.mem_or_eq_of_mem_set hv with hv | rfl
        · exact hv
        · simp [ptrOf] at hp
      · rcases List.mem_or_eq_of_mem_set hv with hv | rfl
        · exact hv
        · simp [ptrOf] at hp
      · exact hv
  · intro p x hx hf
    cases op with
    | make k' ty => exact app rfl hx hf
    | unit k' => exact app rfl hx hf
    | call i => rw [step] at hx; split at hx <;> exact h.gone p x hx hf
    | clone i =>
      rw [step] at hx
      split at hx
      · exact hin hx hf
      · exact hin hx hf
      · exact h.gone p x hx hf
    | clonePtr i => exact absurd rfl (hn i)
    | swap i j =>
      rw [step] at hx
      split at hx
      · split at hx <;> exact h.gone p x hx hf
      · exact h.gone p x hx hf
    | drop i =>
      rw [step] at hx
      split at hx
      · rename_i k q t e; exact hde ⟨_, vmem e (by simp), ⟨k, rfl⟩, rfl⟩ hx hf
      · rename_i k q e; exact hde ⟨_, vmem e (by simp), ⟨k, rfl⟩, rfl⟩ hx hf
      · exact h.gone p x hx hf

/-- If moreover the pointers inside of objects are not copied, a value is destroyed by the destructor of its type. -/
theorem C78_destroyed_partial (ops : List Op) (h : Tame St.new ops) (hn : NoCopies ops) (p : Nat) (c : Cell)
    (hc : (run St.new ops).cells[p]? = some c) (hf : c.freed = true) : c.dropped = [c.ty] := by
  have key : ∀ (ops : List Op) {s : St}, Mem s → Owned s → Tame s ops → NoCopies ops → Owned (run s ops) := by
    intro ops
    induction ops with
    | nil => intro s _ h _ _; exact h
    | cons op ops ih =>
      intro s m h ht hn
      exact ih (mem_step m op) (owned_step m h op ht.1 fun i => hn op (List.mem_cons_self ..) i) ht.2 fun op' h' => hn op' (List.mem_cons_of_mem _ h')
  have hnew : Owned St.new := by
    constructor
    · intro _ h; simp [St.new] at h
    · intro _ _ h; simp [St.new] at h
  exact (key ops mem_new hnew h hn).gone p c hc hf

/-- Two objects of one type, a copy, an exchange of their pointers, calls, and the end of all of them. -/
def exOps : List Op := [.make .arc 3, .make .arc 3, .make .box 4, .clone 0, .swap 0 1, .call 0, .call 1, .call 2, .drop 0, .drop 1, .drop 3, .drop 2]
example : Tame St.new exOps ∧ NoCopies exOps ∧ (run St.new exOps).calls = [⟨3, 1, some 3⟩, ⟨3, 0, some 3⟩, ⟨4, 2, some 4⟩] ∧
    (run St.new exOps).cells.map Cell.dropped = [[3], [3], [4]] := by
  refine ⟨?_, ?_, by decide, by decide⟩
  · simp [Tame, exOps, step, getVar, St.new, ptrOf, setPtr, tag]
  · simp [NoCopies, exOps]

/-- Refuted: safe code exchanges the pointers of two objects of different types, with `mem::swap(a.ptr_mut(), b.ptr_mut())`; then the code of each type runs
on a value of the other, and so do the destructors. -/
theorem C78_swap_refuted (k : Kind) (a b : Nat) :
    let s := run St.new [.make k a, .make k b, .swap 0 1, .call 0, .drop 0, .drop 1]
    s.calls = [⟨a, 1, some b⟩] ∧ s.cells.map (fun c => (c.ty, c.dropped)) = [(a, [b]), (b, [a])] := by
  cases k <;> simp [run, step, St.new, getVar, ptrOf, setPtr, decr, List.modify]

/-- Refuted: the same with a pointer that safe code makes itself: a method runs on a value `()`, which has no bytes. -/
theorem C78_unit_refuted (k : Kind) (a : Nat) : (run St.new [.make k a, .unit k, .swap 0 1, .call 0]).calls = [⟨a, 1, some 0⟩] := by
  cases k <;> simp [run, step, St.new, getVar, ptrOf, setPtr]

/-- Refuted: a copy of the `Arc<()>` inside of an object, that outlives the object, releases the memory without running the destructor of the value. -/
theorem C78_copy_refuted (a : Nat) : (run St.new [.make .arc a, .clonePtr 0, .drop 0, .drop 1]).cells = [⟨.arc, a, 0, true, [0]⟩] := by
  simp [run, step, St.new, getVar, incr, decr, List.modify]

end Verif.Props.DynOwner
