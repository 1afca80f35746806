import Verif.Macros.TyOpsLemmas
/-! One level of an expression: what sequences of pieces without adjacent operands are accepted. -/
namespace Verif.Macros

variable {okTy : List Tok → Bool}

/-- What an operand is read as. -/
def Chunk.tree (okTy : List Tok → Bool) : Chunk → Option TyExpr
  | .path p => if pathWf true p && okTy (pathCanon p) then some (.ty (pathCanon p)) else none
  | .group ts => parse okTy ts
  | _ => none

/-- A state in which no operand is being read. -/
abbrev fresh (it : Bool) (op : Option Kind) (ty : List TyExpr) : PSt := ⟨.normal, [], true, it, op, ty⟩

/-- A path has been read that is no type. -/
def Bad (okTy : List Tok → Bool) (it : Bool) (op : Option Kind) (ty : List TyExpr) (s : PSt) : Prop :=
  ∃ p a, s = ⟨.normal, p, a, it, op, ty⟩ ∧ p ≠ [] ∧ okTy p = false

theorem Bad.flush {it : Bool} {op : Option Kind} {ty : List TyExpr} {s : PSt} (h : Bad okTy it op ty s)
    (op' : Option Kind) (it' : Bool) : PSt.flush okTy { s with op := op', inTern := it' } = none := by
  obtain ⟨p, a, rfl, h1, h2⟩ := h
  cases p with
  | nil => exact absurd rfl h1
  | cons x p => simp [PSt.flush, h2]

theorem Bad.finish {it : Bool} {op : Option Kind} {ty : List TyExpr} {s : PSt} (h : Bad okTy it op ty s) :
    s.finish okTy = none := by
  have hf := h.flush op it
  obtain ⟨p, a, rfl, h1, h2⟩ := h
  rw [finish_normal, hf]

theorem Bad.stuck {it : Bool} {op : Option Kind} {ty : List TyExpr} {s : PSt} (h : Bad okTy it op ty s)
    {c : Chunk} (hc : c.isOpd = false) : run okTy c.render s = none := by
  have hf := fun o i => h.flush o i
  obtain ⟨p, a, rfl, h1, h2⟩ := h
  cases c with
  | path p => cases hc
  | group ts => cases hc
  | bin o j =>
    cases op with
    | some k =>
      cases o <;> simp only [Chunk.render, BinOp.render, run_cons, run_nil, Tok.item, PSt.step, PSt.punct, PSt.operator, PSt.setOp,
        if_true, if_false, Char.reduceEq]
    | none =>
      have hf' := hf (some (.bin o)) it
      cases o <;> simp only [Chunk.render, BinOp.render, run_cons, run_nil, Tok.item, PSt.step, PSt.punct, PSt.operator, PSt.setOp,
        if_true, if_false, Char.reduceEq, hf']
  | not =>
    have : p.isEmpty = false := by cases p with | nil => exact absurd rfl h1 | cons => rfl
    cases op <;> simp [Chunk.render, run_cons, Tok.item, PSt.step, PSt.punct, PSt.setOp, this]
  | quest j =>
    have hf' := hf (some .tern) true
    cases op <;> simp only [Chunk.render, run_cons, Tok.item, PSt.step, PSt.punct, PSt.setOp, if_false, if_true, Char.reduceEq, hf']
  | colon =>
    have hf' := hf op false
    cases it <;> simp only [Chunk.render, run_cons, Tok.item, PSt.step, PSt.punct, if_false, if_true, Bool.false_eq_true, hf']

/-- What a path leaves behind. -/
theorem run_path_inv {q : List PElem} {a : Bool} {p : List Tok} {it : Bool} {op : Option Kind} {ty : List TyExpr} {s : PSt}
    (hq : q.all PElem.ok = true) (e : run okTy (pathRender q) ⟨.normal, p, a, it, op, ty⟩ = some s) :
    pathWf a q = true ∧ ∃ a', s = ⟨.normal, p ++ pathCanon q, a', it, op, ty⟩ := by
  induction q generalizing a p with
  | nil => cases e; exact ⟨rfl, a, by simp [pathCanon]⟩
  | cons x q ih =>
    simp only [List.all_cons, Bool.and_eq_true] at hq
    simp only [pathRender, List.flatMap_cons] at e
    obtain ⟨m, e1, e2⟩ := run_split e
    simp only [pathCanon, List.flatMap_cons, ← List.append_assoc]
    cases x with
    | id x =>
      rw [run_id] at e1
      split at e1
      · rename_i ha
        cases e1
        obtain ⟨h1, h2⟩ := ih hq.2 e2
        exact ⟨by simp [pathWf, ha, h1], h2⟩
      · cases e1
    | sep j =>
      rw [run_sep] at e1
      cases e1
      exact ih hq.2 e2
    | ang j ts j' =>
      rw [run_ang hq.1] at e1
      cases e1
      obtain ⟨h1, h2⟩ := ih hq.2 e2
      exact ⟨by simp only [pathWf, h1, Bool.and_true]; exact hq.1, h2⟩

/-- An operand. -/
theorem run_operand {c : Chunk} (hk : c.ok = true) (hc : c.isOpd = true) {it : Bool} {op : Option Kind} {ty : List TyExpr} {s : PSt}
    (e : run okTy c.render (fresh it op ty) = some s) :
    (∃ x, c.tree okTy = some x ∧ Ready okTy x it op ty s) ∨ Bad okTy it op ty s := by
  cases c with
  | path p =>
    simp only [Chunk.ok, Bool.and_eq_true, Bool.not_eq_true', List.isEmpty_eq_false_iff] at hk
    obtain ⟨h1, a', rfl⟩ := run_path_inv hk.2 e
    by_cases ho : okTy (pathCanon p) = true
    · refine Or.inl ⟨.ty (pathCanon p), by simp [Chunk.tree, h1, ho], pathCanon p, a', ?_, Or.inr ⟨ho, rfl⟩⟩
      rw [if_neg (pathCanon_ne_nil hk.1)]; rfl
    · exact Or.inr ⟨pathCanon p, a', rfl, pathCanon_ne_nil hk.1, by simpa using ho⟩
  | group ts =>
    left
    simp only [Chunk.render, run_cons, Tok.item, PSt.step] at e
    cases hp : parse okTy ts with
    | none => unfold parse at hp; rw [hp] at e; cases e
    | some x =>
      have hp' := hp
      unfold parse at hp'
      rw [hp'] at e
      cases e
      exact ⟨x, hp, [], false, by rw [if_pos rfl], Or.inl rfl⟩
  | _ => cases hc

/-- An operand in a state that has read `(A) !`. -/
theorem run_operand_post {c : Chunk} (hk : c.ok = true) (hc : c.isOpd = true) {a it : Bool} {op : Option Kind} {ty : List TyExpr}
    {s : PSt} (e : run okTy c.render ⟨.normal, [], a, it, op, ty⟩ = some s) :
    (∃ x, Ready okTy x it op ty s) ∨ Bad okTy it op ty s := by
  cases c with
  | path p =>
    simp only [Chunk.ok, Bool.and_eq_true, Bool.not_eq_true', List.isEmpty_eq_false_iff] at hk
    obtain ⟨h1, a', rfl⟩ := run_path_inv hk.2 e
    by_cases ho : okTy (pathCanon p) = true
    · refine Or.inl ⟨.ty (pathCanon p), pathCanon p, a', ?_, Or.inr ⟨ho, rfl⟩⟩
      rw [if_neg (pathCanon_ne_nil hk.1)]; rfl
    · exact Or.inr ⟨pathCanon p, a', rfl, pathCanon_ne_nil hk.1, by simpa using ho⟩
  | group ts =>
    left
    simp only [Chunk.render, run_cons, Tok.item, PSt.step] at e
    cases hp : parse okTy ts with
    | none => unfold parse at hp; rw [hp] at e; cases e
    | some x =>
      have hp' := hp
      unfold parse at hp'
      rw [hp'] at e
      cases e
      exact ⟨x, [], false, by rw [if_pos rfl], Or.inl rfl⟩
  | _ => cases hc

/-- A separator after an operand: the operators need that there was none, the colon a question mark. -/
theorem run_sep_ready {c : Chunk} {x : TyExpr} {it : Bool} {op : Option Kind} {ty : List TyExpr} {s s' : PSt}
    (h : Ready okTy x it op ty s) (hc : c.isOpd = false) (e : run okTy c.render s = some s') :
    (∃ o j, c = .bin o j ∧ op = none ∧ s' = fresh it (some (.bin o)) (ty ++ [x])) ∨
    (∃ j, c = .quest j ∧ op = none ∧ s' = fresh true (some .tern) (ty ++ [x])) ∨
    (c = .colon ∧ it = true ∧ s' = fresh false op (ty ++ [x])) ∨
    (c = .not ∧ op = none ∧ ∃ a, s = ⟨.normal, [], a, it, none, ty ++ [x]⟩ ∧ s' = ⟨.normal, [], a, it, some .not, ty ++ [x]⟩) := by
  cases c with
  | path p => cases hc
  | group p => cases hc
  | bin o j =>
    left
    obtain ⟨h1, h2⟩ := run_chunk_op (c := .bin o j) rfl h.mode.1 e
    have ho : op = none := h.mode.2.1.symm.trans h2.1
    subst ho
    have := step_binop h o j
    rw [Chunk.render, this] at e; cases e
    exact ⟨o, j, rfl, rfl, rfl⟩
  | not =>
    obtain ⟨h1, h2⟩ := run_chunk_op (c := .not) rfl h.mode.1 e
    have ho : op = none := h.mode.2.1.symm.trans h2.1
    subst ho
    obtain ⟨p, a, rfl, hp⟩ := h
    simp only [Chunk.render, run_cons, run_nil, Tok.item, PSt.step, PSt.punct, PSt.setOp, if_false, if_true, Char.reduceEq] at e
    cases p with
    | nil => simp at e; subst e; exact Or.inr (Or.inr (Or.inr ⟨rfl, rfl, a, by simp, rfl⟩))
    | cons y p => simp at e
  | quest j =>
    right; left
    obtain ⟨h1, h2⟩ := run_chunk_op (c := .quest j) rfl h.mode.1 e
    have ho : op = none := h.mode.2.1.symm.trans h2.1
    subst ho
    rw [Chunk.render, run_cons_some (step_quest h j)] at e; cases e
    exact ⟨j, rfl, rfl, rfl⟩
  | colon =>
    right; right; left
    cases it with
    | true =>
      rw [Chunk.render, run_cons_some (step_colon h)] at e; cases e
      exact ⟨rfl, rfl, rfl⟩
    | false =>
      obtain ⟨p, a, rfl, hp⟩ := h
      simp [Chunk.render, run_cons, Tok.item, PSt.step, PSt.punct] at e

/-- A separator where an operand could come. -/
theorem run_sep_fresh {c : Chunk} {it : Bool} {op : Option Kind} {ty : List TyExpr} {s' : PSt}
    (hc : c.isOpd = false) (e : run okTy c.render (fresh it op ty) = some s') :
    (∃ o j, c = .bin o j ∧ op = none ∧ s' = fresh it (some (.bin o)) ty) ∨
    (∃ j, c = .quest j ∧ op = none ∧ s' = fresh true (some .tern) ty) ∨
    (c = .colon ∧ it = true ∧ s' = fresh false op ty) ∨
    (c = .not ∧ op = none ∧ s' = fresh it (some .not) ty) := by
  cases c with
  | path p => cases hc
  | group p => cases hc
  | bin o j =>
    left
    obtain ⟨h1, h2⟩ := run_chunk_op (c := .bin o j) rfl rfl e
    have ho : op = none := h2.1
    subst ho
    refine ⟨o, j, rfl, rfl, ?_⟩
    cases o <;> (cases e; rfl)
  | not =>
    obtain ⟨h1, h2⟩ := run_chunk_op (c := .not) rfl rfl e
    have ho : op = none := h2.1
    subst ho
    cases e
    exact Or.inr (Or.inr (Or.inr ⟨rfl, rfl, rfl⟩))
  | quest j =>
    right; left
    obtain ⟨h1, h2⟩ := run_chunk_op (c := .quest j) rfl rfl e
    have ho : op = none := h2.1
    subst ho
    cases e
    exact ⟨j, rfl, rfl, rfl⟩
  | colon =>
    right; right; left
    cases it with
    | true => cases e; exact ⟨rfl, rfl, rfl⟩
    | false => cases e

/-- The pieces `cs` are accepted from the state `s` and give `e`. -/
def Acc (okTy : List Tok → Bool) (cs : List Chunk) (s : PSt) (e : TyExpr) : Prop :=
  ∃ s', run okTy (cs.flatMap Chunk.render) s = some s' ∧ s'.finish okTy = some e

theorem Acc.nil {s : PSt} {e : TyExpr} (h : Acc okTy [] s e) : s.finish okTy = some e := by
  obtain ⟨s', h1, h2⟩ := h
  cases h1; exact h2

theorem Acc.cons {c : Chunk} {cs : List Chunk} {s : PSt} {e : TyExpr} (h : Acc okTy (c :: cs) s e) :
    ∃ m, run okTy c.render s = some m ∧ Acc okTy cs m e := by
  obtain ⟨s', h1, h2⟩ := h
  rw [List.flatMap_cons] at h1
  obtain ⟨m, e1, e2⟩ := run_split h1
  exact ⟨m, e1, s', e2, h2⟩

/-- After an operand, with the operator known and no colon expected, the sequence ends. -/
theorem Acc.last {cs : List Chunk} {x e : TyExpr} {k : Kind} {ty : List TyExpr} {s : PSt}
    (hcs : ∀ c ∈ cs.head?, c.isOpd = false)
    (h : Acc okTy cs s e) (hs : Ready okTy x false (some k) ty s ∨ Bad okTy false (some k) ty s) :
    cs = [] ∧ Ready okTy x false (some k) ty s ∧ build (some k) (ty ++ [x]) = some e := by
  cases cs with
  | nil =>
    rcases hs with hs | hs
    · exact ⟨rfl, hs, by rw [← hs.finish]; exact h.nil⟩
    · have := h.nil; rw [hs.finish] at this; cases this
  | cons c cs =>
    obtain ⟨m, e1, h'⟩ := h.cons
    have hc := hcs c rfl
    rcases hs with hs | hs
    · rcases run_sep_ready hs hc e1 with ⟨_, _, _, h0, _⟩ | ⟨_, _, h0, _⟩ | ⟨_, h0, _⟩ | ⟨_, h0, _⟩ <;> cases h0
    · rw [hs.stuck hc] at e1; cases e1

/-- In a fresh state with the operator known and no colon expected, at most one operand comes. -/
theorem Acc.tail {cs : List Chunk} {e : TyExpr} {k : Kind} {ty : List TyExpr} (hk : ∀ c ∈ cs, c.ok = true) (ha : apart cs = true)
    (h : Acc okTy cs (fresh false (some k) ty) e) :
    (cs = [] ∧ build (some k) ty = some e) ∨
    ∃ c x, cs = [c] ∧ c.isOpd = true ∧ c.tree okTy = some x ∧ build (some k) (ty ++ [x]) = some e := by
  cases cs with
  | nil => exact Or.inl ⟨rfl, by have := h.nil; rwa [finish_normal] at this⟩
  | cons c cs =>
    right
    obtain ⟨m, e1, h'⟩ := h.cons
    by_cases hc : c.isOpd = true
    · have hd : ∀ c' ∈ cs.head?, c'.isOpd = false := by
        intro c' hc'
        cases cs with
        | nil => cases hc'
        | cons d cs =>
          cases hc'
          simp only [apart, hc, Bool.true_and, Bool.and_eq_true, Bool.not_eq_true'] at ha
          exact ha.1
      rcases run_operand (hk c List.mem_cons_self) hc e1 with ⟨x, hx, hr⟩ | hb
      · obtain ⟨h1, h2, h3⟩ := h'.last hd (Or.inl hr)
        exact ⟨c, x, by rw [h1], hc, hx, h3⟩
      · obtain ⟨h1, h2, h3⟩ := h'.last (x := .ty []) hd (Or.inr hb)
        subst h1
        have := h'.nil; rw [hb.finish] at this; cases this
    · rcases run_sep_fresh (by simpa using hc) e1 with ⟨_, _, _, h0, _⟩ | ⟨_, _, h0, _⟩ | ⟨_, h0, _⟩ | ⟨_, h0, _⟩ <;> cases h0

theorem apart_tail {c : Chunk} {cs : List Chunk} (h : apart (c :: cs) = true) : apart cs = true := by
  cases cs with
  | nil => rfl
  | cons d cs => simp only [apart, Bool.and_eq_true] at h; exact h.2

theorem apart_next {c d : Chunk} {cs : List Chunk} (h : apart (c :: d :: cs) = true) (hc : c.isOpd = true) : d.isOpd = false := by
  simp only [apart, hc, Bool.true_and, Bool.and_eq_true, Bool.not_eq_true'] at h
  exact h.1

/-- After `?` with what has been read in `ty`. -/
theorem Acc.quest {cs : List Chunk} {e : TyExpr} {ty : List TyExpr} (hk : ∀ c ∈ cs, c.ok = true) (ha : apart cs = true)
    (hty : ty.length ≤ 1) (h : Acc okTy cs (fresh true (some .tern) ty) e) :
    ∃ t f x y c, cs = [t, .colon, f] ∧ t.isOpd = true ∧ f.isOpd = true ∧ t.tree okTy = some x ∧ f.tree okTy = some y ∧
      ty = [c] ∧ e = .tern c x y := by
  have b3 : ∀ {l : List TyExpr}, build (some .tern) l = some e → l.length = 3 := by
    intro l hl
    rcases l with _ | ⟨a, _ | ⟨b, _ | ⟨c, _ | ⟨d, l⟩⟩⟩⟩ <;> first | rfl | cases hl
  cases cs with
  | nil =>
    have := b3 (by have := h.nil; rwa [finish_normal] at this : build (some .tern) ty = some e)
    omega
  | cons c cs =>
    obtain ⟨m, e1, h'⟩ := h.cons
    have hk' : ∀ c ∈ cs, c.ok = true := fun d hd => hk d (List.mem_cons_of_mem _ hd)
    by_cases hc : c.isOpd = true
    · rcases run_operand (hk c List.mem_cons_self) hc e1 with ⟨x, hx, hr⟩ | hb
      · cases cs with
        | nil =>
          have h1 := h'.nil; rw [hr.finish] at h1
          have h2 := b3 h1; rw [List.length_append] at h2; simp at h2; omega
        | cons d cs =>
          obtain ⟨m', e2, h''⟩ := h'.cons
          rcases run_sep_ready hr (apart_next ha hc) e2 with ⟨_, _, _, h0, _⟩ | ⟨_, _, h0, _⟩ | ⟨hd, _, rfl⟩ | ⟨_, h0, _⟩ <;> try cases h0
          subst hd
          rcases h''.tail (fun d hd => hk' d (List.mem_cons_of_mem _ hd)) (apart_tail (apart_tail ha)) with ⟨rfl, h3⟩ | ⟨f, y, rfl, hf, hy, h3⟩
          · have h2 := b3 h3; rw [List.length_append] at h2; simp at h2; omega
          · have h2 := b3 h3
            rcases ty with _ | ⟨a, _ | ⟨b, ty⟩⟩
            · simp at h2
            · cases h3
              exact ⟨c, f, x, y, a, rfl, hc, hf, hx, hy, rfl, rfl⟩
            · simp at hty
      · cases cs with
        | nil => have := h'.nil; rw [hb.finish] at this; cases this
        | cons d cs =>
          obtain ⟨m', e2, h''⟩ := h'.cons
          rw [hb.stuck (apart_next ha hc)] at e2; cases e2
    · rcases run_sep_fresh (by simpa using hc) e1 with ⟨_, _, _, h0, _⟩ | ⟨_, _, h0, _⟩ | ⟨hd, _, rfl⟩ | ⟨_, h0, _⟩ <;> try cases h0
      rcases h'.tail hk' (apart_tail ha) with ⟨rfl, h3⟩ | ⟨f, y, rfl, hf, hy, h3⟩
      · have := b3 h3; omega
      · have h2 := b3 h3; rw [List.length_append] at h2; simp at h2; omega

/-- The accepted sequences. -/
theorem accepted {cs : List Chunk} {e : TyExpr} (hk : ∀ c ∈ cs, c.ok = true) (ha : apart cs = true)
    (h : parse okTy (cs.flatMap Chunk.render) = some e) :
    (∃ c x, cs = [c] ∧ c.isOpd = true ∧ c.tree okTy = some x ∧ e = x) ∨
    (∃ c x, cs = [.not, c] ∧ c.isOpd = true ∧ c.tree okTy = some x ∧ e = .not x) ∨
    (∃ o j l r x y, cs = [l, .bin o j, r] ∧ l.isOpd = true ∧ r.isOpd = true ∧ l.tree okTy = some x ∧ r.tree okTy = some y ∧
      e = .bin o x y) ∨
    (∃ j c t f x y z, cs = [c, .quest j, t, .colon, f] ∧ c.isOpd = true ∧ t.isOpd = true ∧ f.isOpd = true ∧
      c.tree okTy = some x ∧ t.tree okTy = some y ∧ f.tree okTy = some z ∧ e = .tern x y z) ∨
    (∃ ts x, cs = [.group ts, .not] ∧ parse okTy ts = some x ∧ e = .not x) := by
  have h : Acc okTy cs (fresh false none []) e := by
    obtain ⟨s, h1, h2⟩ := parse_run h; exact ⟨s, h1, h2⟩
  cases cs with
  | nil => have := h.nil; rw [finish_normal] at this; cases this
  | cons c cs =>
    obtain ⟨m, e1, h1⟩ := h.cons
    have hk1 : ∀ c ∈ cs, c.ok = true := fun d hd => hk d (List.mem_cons_of_mem _ hd)
    by_cases hc : c.isOpd = true
    · rcases run_operand (hk c List.mem_cons_self) hc e1 with ⟨x, hx, hr⟩ | hb
      · cases cs with
        | nil =>
          have h2 := h1.nil; rw [hr.finish] at h2; cases h2
          exact Or.inl ⟨c, _, rfl, hc, hx, rfl⟩
        | cons d cs =>
          obtain ⟨m', e2, h2⟩ := h1.cons
          have hk2 : ∀ c ∈ cs, c.ok = true := fun d hd => hk1 d (List.mem_cons_of_mem _ hd)
          have ha2 := apart_tail (apart_tail ha)
          rcases run_sep_ready hr (apart_next ha hc) e2 with ⟨o, j, rfl, _, rfl⟩ | ⟨j, rfl, _, rfl⟩ | ⟨_, h0, _⟩ | ⟨rfl, _, a, hs, rfl⟩
          · rcases h2.tail hk2 ha2 with ⟨_, h3⟩ | ⟨r, y, rfl, hr', hy, h3⟩
            · cases h3
            · cases h3
              exact Or.inr (Or.inr (Or.inl ⟨o, j, c, r, x, y, rfl, hc, hr', hx, hy, rfl⟩))
          · obtain ⟨t, f, y, z, c', rfl, ht, hf, hy, hz, hty, rfl⟩ := h2.quest (ty := [] ++ [x]) hk2 ha2 (by simp)
            cases hty
            exact Or.inr (Or.inr (Or.inr (Or.inl ⟨j, c, t, f, x, y, z, rfl, hc, ht, hf, hx, hy, hz, rfl⟩)))
          · cases h0
          · right; right; right; right
            have hg : ∃ ts, c = .group ts := by
              cases c with
              | path p =>
                have hk0 := hk (.path p) List.mem_cons_self
                simp only [Chunk.ok, Bool.and_eq_true, Bool.not_eq_true', List.isEmpty_eq_false_iff] at hk0
                obtain ⟨_, a', hs'⟩ := run_path_inv hk0.2 e1
                rw [hs] at hs'
                simp only [List.nil_append, PSt.mk.injEq] at hs'
                exact absurd hs'.2.1.symm (pathCanon_ne_nil hk0.1)
              | group ts => exact ⟨ts, rfl⟩
              | _ => cases hc
            obtain ⟨ts, rfl⟩ := hg
            cases cs with
            | nil =>
              have h3 := h2.nil; cases h3
              exact ⟨ts, x, rfl, hx, rfl⟩
            | cons d cs =>
              exfalso
              obtain ⟨m, e3, h3⟩ := h2.cons
              by_cases hd : d.isOpd = true
              · have hd' : ∀ c' ∈ cs.head?, c'.isOpd = false := by
                  intro c' hc'
                  cases cs with
                  | nil => cases hc'
                  | cons b cs => cases hc'; exact apart_next ha2 hd
                rcases run_operand_post (hk2 d List.mem_cons_self) hd e3 with ⟨y, hy⟩ | hb
                · obtain ⟨_, _, h4⟩ := h3.last hd' (Or.inl hy); cases h4
                · obtain ⟨rfl, _, _⟩ := h3.last (x := .ty []) hd' (Or.inr hb)
                  have := h3.nil; rw [hb.finish] at this; cases this
              · have hd0 : Ready okTy x false (some .not) [] ⟨.normal, [], a, false, some .not, [] ++ [x]⟩ :=
                  ⟨[], a, by rw [if_pos rfl], Or.inl rfl⟩
                rcases run_sep_ready hd0 (by simpa using hd) e3 with ⟨_, _, _, h0, _⟩ | ⟨_, _, h0, _⟩ | ⟨_, h0, _⟩ | ⟨_, h0, _⟩ <;> cases h0
      · cases cs with
        | nil => have := h1.nil; rw [hb.finish] at this; cases this
        | cons d cs =>
          obtain ⟨m', e2, h''⟩ := h1.cons
          rw [hb.stuck (apart_next ha hc)] at e2; cases e2
    · rcases run_sep_fresh (by simpa using hc) e1 with ⟨o, j, rfl, _, rfl⟩ | ⟨j, rfl, _, rfl⟩ | ⟨_, h0, _⟩ | ⟨rfl, _, rfl⟩
      · rcases h1.tail hk1 (apart_tail ha) with ⟨_, h3⟩ | ⟨r, y, rfl, hr', hy, h3⟩ <;> cases h3
      · obtain ⟨_, _, _, _, _, _, _, _, _, _, hty, _⟩ := h1.quest (ty := []) hk1 (apart_tail ha) (by simp)
        cases hty
      · cases h0
      · rcases h1.tail hk1 (apart_tail ha) with ⟨_, h3⟩ | ⟨r, y, rfl, hr', hy, h3⟩
        · cases h3
        · cases h3
          exact Or.inr (Or.inl ⟨r, y, rfl, hr', hy, rfl⟩)

/-- A group that is not an expression makes the whole fail. -/
theorem bad_group {cs : List Chunk} (hk : ∀ c ∈ cs, c.ok = true) {ts rest : List Tok} (h : parse okTy ts = none) :
    parse okTy (cs.flatMap Chunk.render ++ .group ts :: rest) = none := by
  cases e : parse okTy (cs.flatMap Chunk.render ++ .group ts :: rest) with
  | none => rfl
  | some x =>
    exfalso
    obtain ⟨s, h1, h2⟩ := parse_run e
    obtain ⟨m, e1, e2⟩ := run_split h1
    have hm : m.mode = .normal := by
      clear h1 h2 e2 e
      have : ∀ (cs : List Chunk), (∀ c ∈ cs, c.ok = true) → ∀ s m : PSt, s.mode = .normal →
          run okTy (cs.flatMap Chunk.render) s = some m → m.mode = .normal := by
        intro cs
        induction cs with
        | nil => intro _ s m hs e; cases e; exact hs
        | cons c cs ih =>
          intro hk s m hs e
          rw [List.flatMap_cons] at e
          obtain ⟨m', e1, e2⟩ := run_split e
          exact ih (fun d hd => hk d (List.mem_cons_of_mem _ hd)) m' m (run_chunk_op (hk c List.mem_cons_self) hs e1).1 e2
      exact this cs hk _ m rfl e1
    obtain ⟨mm, p, a, it, op, ty⟩ := m
    dsimp only at hm
    subst hm
    unfold parse at h
    simp [run_cons, Tok.item, PSt.step, h] at e2

/-- So does a literal outside of brackets. -/
theorem bad_lit {cs : List Chunk} (hk : ∀ c ∈ cs, c.ok = true) {rest : List Tok} :
    parse okTy (cs.flatMap Chunk.render ++ .lit :: rest) = none := by
  cases e : parse okTy (cs.flatMap Chunk.render ++ .lit :: rest) with
  | none => rfl
  | some x =>
    exfalso
    obtain ⟨s, h1, h2⟩ := parse_run e
    obtain ⟨m, e1, e2⟩ := run_split h1
    have hm : m.mode = .normal := by
      clear h1 h2 e2 e
      have : ∀ (cs : List Chunk), (∀ c ∈ cs, c.ok = true) → ∀ s m : PSt, s.mode = .normal →
          run okTy (cs.flatMap Chunk.render) s = some m → m.mode = .normal := by
        intro cs
        induction cs with
        | nil => intro _ s m hs e; cases e; exact hs
        | cons c cs ih =>
          intro hk s m hs e
          rw [List.flatMap_cons] at e
          obtain ⟨m', e1, e2⟩ := run_split e
          exact ih (fun d hd => hk d (List.mem_cons_of_mem _ hd)) m' m (run_chunk_op (hk c List.mem_cons_self) hs e1).1 e2
      exact this cs hk _ m rfl e1
    obtain ⟨mm, p, a, it, op, ty⟩ := m
    dsimp only at hm
    subst hm
    simp [run_cons, Tok.item, PSt.step] at e2

/-! ### Nothing is dropped -/

theorem flush_types {s s' : PSt} (e : s.flush okTy = some s') : ∃ new, s'.types = s.types ++ new := by
  unfold PSt.flush at e
  split at e
  · cases e; exact ⟨[], by simp⟩
  · split at e
    · cases e; exact ⟨_, rfl⟩
    · cases e

theorem setOp_types {s s' : PSt} {k : Kind} (e : s.setOp k = some s') : s'.types = s.types := by
  unfold PSt.setOp at e
  cases h : s.op with
  | none => rw [h] at e; cases e; rfl
  | some _ => rw [h] at e; cases e

theorem operator_types {s s' : PSt} {k : Kind} (e : s.operator okTy k = some s') : ∃ new, s'.types = s.types ++ new := by
  unfold PSt.operator at e
  cases h : s.setOp k with
  | none => rw [h] at e; cases e
  | some m =>
    rw [h] at e
    obtain ⟨new, hn⟩ := flush_types e
    exact ⟨new, by rw [hn, setOp_types h]⟩

/-- A piece adds operands behind those there are; a group adds what it is read as. -/
theorem run_chunk_types {c : Chunk} (h : c.ok = true) {s s' : PSt} (hm : s.mode = .normal)
    (e : run okTy c.render s = some s') :
    ∃ new, s'.types = s.types ++ new ∧ ∀ ts, c = .group ts → ∃ x, parse okTy ts = some x ∧ new = [x] := by
  obtain ⟨m, p, a, it, op, ty⟩ := s
  dsimp only at hm; subst hm
  cases c with
  | path q =>
    simp only [Chunk.ok, Bool.and_eq_true] at h
    obtain ⟨_, a', rfl⟩ := run_path_inv h.2 e
    exact ⟨[], by simp, nofun⟩
  | group ts =>
    simp only [Chunk.render, run_cons, Tok.item, PSt.step] at e
    cases hp : parse okTy ts with
    | none => unfold parse at hp; rw [hp] at e; cases e
    | some x =>
      have hp' := hp
      unfold parse at hp'
      rw [hp'] at e
      cases e
      exact ⟨[x], rfl, fun ts' h' => by cases h'; exact ⟨x, hp, rfl⟩⟩
  | bin o j =>
    have : PSt.operator okTy ⟨.normal, p, a, it, op, ty⟩ (.bin o) = some s' := by
      cases o <;>
        simp only [Chunk.render, BinOp.render, run_cons, run_nil, Tok.item, PSt.step, PSt.punct, if_true, if_false, Char.reduceEq] at e <;>
        (split at e <;> cases e) <;> assumption
    obtain ⟨new, hn⟩ := operator_types this
    exact ⟨new, hn, nofun⟩
  | not =>
    simp only [Chunk.render, run_cons, run_nil, Tok.item, PSt.step, PSt.punct, if_false, if_true, Char.reduceEq] at e
    cases h : PSt.setOp ⟨.normal, p, a, it, op, ty⟩ .not with
    | none => simp [h] at e
    | some m =>
      cases hp : p.isEmpty <;> simp [h, hp] at e
      subst e
      exact ⟨[], by rw [setOp_types h]; simp, nofun⟩
  | quest j =>
    simp only [Chunk.render, run_cons, run_nil, Tok.item, PSt.step, PSt.punct, if_false, if_true, Char.reduceEq] at e
    cases h : PSt.setOp ⟨.normal, p, a, it, op, ty⟩ .tern with
    | none => simp [h] at e
    | some m =>
      rw [h] at e
      dsimp only at e
      cases h' : PSt.flush okTy { m with inTern := true } with
      | none => rw [h'] at e; cases e
      | some m' =>
        rw [h'] at e; cases e
        obtain ⟨new, hn⟩ := flush_types h'
        exact ⟨new, by rw [hn]; simp only [setOp_types h], nofun⟩
  | colon =>
    cases it with
    | false => simp [Chunk.render, run_cons, Tok.item, PSt.step, PSt.punct] at e
    | true =>
      simp only [Chunk.render, run_cons, run_nil, Tok.item, PSt.step, PSt.punct, if_true, if_false, Bool.false_eq_true] at e
      cases h' : PSt.flush okTy ⟨.normal, p, a, false, op, ty⟩ with
      | none => rw [h'] at e; cases e
      | some m' =>
        rw [h'] at e; cases e
        obtain ⟨new, hn⟩ := flush_types h'
        exact ⟨new, hn, nofun⟩

theorem run_chunks_types {cs : List Chunk} (h : ∀ c ∈ cs, c.ok = true) {s s' : PSt} (hm : s.mode = .normal)
    (e : run okTy (cs.flatMap Chunk.render) s = some s') : s'.mode = .normal ∧
    ∃ new gs, s'.types = s.types ++ new ∧ (groupsOf cs).map (parse okTy) = gs.map some ∧ List.Sublist gs new := by
  induction cs generalizing s with
  | nil => cases e; exact ⟨hm, [], [], by simp, rfl, .slnil⟩
  | cons c cs ih =>
    rw [List.flatMap_cons] at e
    obtain ⟨m, e1, e2⟩ := run_split e
    have hc := h c List.mem_cons_self
    obtain ⟨new, hn, hg⟩ := run_chunk_types hc hm e1
    obtain ⟨hm', new', gs, hn', hgs, hs⟩ := ih (fun d hd => h d (List.mem_cons_of_mem _ hd)) (run_chunk_op hc hm e1).1 e2
    refine ⟨hm', new ++ new', ?_⟩
    have key : s'.types = s.types ++ (new ++ new') := by rw [hn', hn, List.append_assoc]
    cases c with
    | group ts =>
      obtain ⟨x, hx, rfl⟩ := hg ts rfl
      exact ⟨x :: gs, key, by simp [groupsOf, hgs, hx], hs.cons_cons x⟩
    | _ => exact ⟨gs, key, hgs, hs.trans (List.sublist_append_right _ _)⟩

/-- The operands of an accepted sequence: all of its groups are among them, in their order. -/
theorem kept {cs : List Chunk} {e : TyExpr} (hk : ∀ c ∈ cs, c.ok = true) (h : parse okTy (cs.flatMap Chunk.render) = some e) :
    ∃ xs gs, (groupsOf cs).map (parse okTy) = gs.map some ∧ List.Sublist gs xs ∧
      ((xs = [e] ∧ cs.countP Chunk.isOp = 0) ∨ xs = e.operands) := by
  obtain ⟨s, h1, h2⟩ := parse_run h
  obtain ⟨hm, new, gs, hn, hgs, hs⟩ := run_chunks_types hk (s := .init) rfl h1
  have hop : s.op = none → cs.countP Chunk.isOp = 0 := by
    intro ho
    clear hn hgs hs hm h2 h
    have : ∀ (cs : List Chunk), (∀ c ∈ cs, c.ok = true) → ∀ s s' : PSt, s.mode = .normal → s'.op = none →
        run okTy (cs.flatMap Chunk.render) s = some s' → s.op = none ∧ cs.countP Chunk.isOp = 0 := by
      intro cs
      induction cs with
      | nil => intro _ s s' _ ho e; cases e; exact ⟨ho, rfl⟩
      | cons c cs ih =>
        intro hk s s' hs ho e
        rw [List.flatMap_cons] at e
        obtain ⟨m, e1, e2⟩ := run_split e
        obtain ⟨g1, g2⟩ := run_chunk_op (hk c List.mem_cons_self) hs e1
        obtain ⟨i1, i2⟩ := ih (fun d hd => hk d (List.mem_cons_of_mem _ hd)) m s' g1 ho e2
        by_cases hc : c.isOp = true
        · rw [if_pos hc] at g2; exact absurd i1 g2.2
        · rw [if_neg hc] at g2
          exact ⟨g2 ▸ i1, by rw [List.countP_cons_of_neg hc, i2]⟩
    exact (this cs hk _ _ rfl ho h1).2
  obtain ⟨m, p, a, it, op, ty⟩ := s
  dsimp only at hm hn hop
  subst hm
  rw [finish_normal] at h2
  cases hf : PSt.flush okTy ⟨.normal, p, a, it, op, ty⟩ with
  | none => rw [hf] at h2; cases h2
  | some s'' =>
    rw [hf] at h2
    dsimp only at h2
    obtain ⟨last, hl⟩ := flush_types hf
    have ho := (flush_op hf).2
    dsimp only at hl ho
    rw [hl, hn, ho] at h2
    simp only [PSt.init, List.nil_append] at h2
    refine ⟨new ++ last, gs, hgs, hs.trans (List.sublist_append_left _ _), ?_⟩
    unfold build at h2
    split at h2 <;> try cases h2
    · rename_i heq; exact Or.inl ⟨heq, hop rfl⟩
    · rename_i heq; exact Or.inr heq
    · rename_i heq; exact Or.inr heq
    · rename_i heq; exact Or.inr heq

end Verif.Macros
