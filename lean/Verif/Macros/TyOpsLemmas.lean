import Verif.Macros.TyOpsSpec
import Verif.Typenum.Lemmas
/-! Lemmas on the parser of `tyeval!`. -/
namespace Verif.Macros
open Verif.Typenum (U Bit)

variable {okTy : List Tok → Bool}

theorem items_append (a b : List Tok) : items okTy (a ++ b) = items okTy a ++ items okTy b := by
  induction a with
  | nil => rfl
  | cons t a ih => simp only [List.cons_append, items, ih]

theorem loop_append (a b : List Item) (s : PSt) :
    loop okTy (a ++ b) s = match loop okTy a s with | none => none | some s' => loop okTy b s' := by
  induction a generalizing s with
  | nil => rfl
  | cons i a ih =>
    simp only [List.cons_append, loop]
    cases s.step okTy i with
    | none => rfl
    | some s' => exact ih s'

/-- The loop over source tokens. -/
def run (okTy : List Tok → Bool) (ts : List Tok) (s : PSt) : Option PSt := loop okTy (items okTy ts) s

theorem run_append (a b : List Tok) (s : PSt) :
    run okTy (a ++ b) s = match run okTy a s with | none => none | some s' => run okTy b s' := by
  unfold run; rw [items_append, loop_append]

theorem run_append_some {a b : List Tok} {s s' : PSt} (h : run okTy a s = some s') :
    run okTy (a ++ b) s = run okTy b s' := by rw [run_append, h]

theorem run_cons (t : Tok) (ts : List Tok) (s : PSt) :
    run okTy (t :: ts) s = match s.step okTy (t.item okTy) with | none => none | some s' => run okTy ts s' := rfl

theorem run_cons_some {t : Tok} {ts : List Tok} {s s' : PSt} (h : s.step okTy (t.item okTy) = some s') :
    run okTy (t :: ts) s = run okTy ts s' := by rw [run_cons, h]

theorem run_nil (s : PSt) : run okTy [] s = some s := rfl

theorem item_tok (t : Tok) : (t.item okTy).tok = t := by cases t <;> rfl

theorem step_angle {t : Tok} {p : List Tok} {a it : Bool} {op : Option Kind} {ty : List TyExpr} {c : Nat} {b : List Tok} :
    PSt.step okTy ⟨.angle c b, p, a, it, op, ty⟩ (t.item okTy) =
      if angleCount c t = 0 then some ⟨.normal, closeAngle p b, a, it, op, ty⟩
      else some ⟨.angle (angleCount c t) (b ++ [t]), p, a, it, op, ty⟩ := by
  simp only [PSt.step, item_tok]

/-- The tokens of a bracket up to the end of the tokens. -/
theorem run_angle {ts : List Tok} {d : Nat} (h : balanced d ts = true) {p : List Tok} {a it : Bool} {op : Option Kind}
    {ty : List TyExpr} {b : List Tok} :
    run okTy ts ⟨.angle (d + 1) b, p, a, it, op, ty⟩ = some ⟨.angle 1 (b ++ ts), p, a, it, op, ty⟩ := by
  induction ts generalizing d b with
  | nil =>
    simp only [balanced, beq_iff_eq] at h
    subst h; simp [run_nil]
  | cons t ts ih =>
    have other : angleCount (d + 1) t = d + 1 → balanced d ts = true →
        run okTy (t :: ts) ⟨.angle (d + 1) b, p, a, it, op, ty⟩ = some ⟨.angle 1 (b ++ t :: ts), p, a, it, op, ty⟩ := by
      intro hc hb
      rw [run_cons, step_angle, hc, if_neg (by omega)]
      have := ih hb (b := b ++ [t])
      rw [List.append_assoc] at this; exact this
    cases t with
    | group g => exact other rfl h
    | ident g => exact other rfl h
    | lit => exact other rfl h
    | punct c j =>
      simp only [balanced] at h
      by_cases h1 : c = '<'
      · rw [if_pos h1] at h
        have hc : angleCount (d + 1) (.punct c j) = d + 1 + 1 := by simp only [angleCount, if_pos h1]
        rw [run_cons, step_angle, hc, if_neg (by omega)]
        have := ih h (b := b ++ [.punct c j])
        rw [List.append_assoc] at this; exact this
      · rw [if_neg h1] at h
        by_cases h2 : c = '>'
        · rw [if_pos h2] at h
          cases d with
          | zero => cases h
          | succ d =>
            have hc : angleCount (d + 1 + 1) (.punct c j) = d + 1 := by simp only [angleCount, if_neg h1, if_pos h2]; omega
            rw [run_cons, step_angle, hc, if_neg (by omega)]
            have := ih h (b := b ++ [.punct c j])
            rw [List.append_assoc] at this; exact this
        · rw [if_neg h2] at h
          exact other (by simp only [angleCount, if_neg h1, if_neg h2]) h

/-- A bracket. -/
theorem run_ang {ts : List Tok} (h : balanced 0 ts = true) {j j' : Bool} {p : List Tok} {a it : Bool} {op : Option Kind}
    {ty : List TyExpr} :
    run okTy (PElem.render (.ang j ts j')) ⟨.normal, p, a, it, op, ty⟩ =
      some ⟨.normal, p ++ PElem.canon (.ang j ts j'), a, it, op, ty⟩ := by
  have h1 : PSt.step okTy ⟨.normal, p, a, it, op, ty⟩ (Tok.item okTy (.punct '<' j)) = some ⟨.angle 1 [], p, a, it, op, ty⟩ := rfl
  rw [PElem.render, run_cons_some h1, run_append_some (run_angle h), run_cons, step_angle]
  rw [if_pos (show angleCount 1 (.punct '>' j') = 0 from rfl)]
  simp [run_nil, closeAngle, PElem.canon]

theorem run_sep {j : Bool} {p : List Tok} {a it : Bool} {op : Option Kind} {ty : List TyExpr} :
    run okTy (PElem.render (.sep j)) ⟨.normal, p, a, it, op, ty⟩ =
      some ⟨.normal, p ++ PElem.canon (.sep j), true, it, op, ty⟩ := rfl

theorem run_id {x : String} {p : List Tok} {a it : Bool} {op : Option Kind} {ty : List TyExpr} :
    run okTy (PElem.render (.id x)) ⟨.normal, p, a, it, op, ty⟩ =
      if a then some ⟨.normal, p ++ PElem.canon (.id x), false, it, op, ty⟩ else none := by
  cases a <;> rfl

/-- A path. -/
theorem run_path {q : List PElem} {a : Bool} (h : pathWf a q = true) {p : List Tok} {it : Bool} {op : Option Kind}
    {ty : List TyExpr} :
    ∃ a', run okTy (pathRender q) ⟨.normal, p, a, it, op, ty⟩ = some ⟨.normal, p ++ pathCanon q, a', it, op, ty⟩ := by
  induction q generalizing a p with
  | nil => exact ⟨a, by simp [pathRender, pathCanon, run_nil]⟩
  | cons x q ih =>
    simp only [pathRender, pathCanon, List.flatMap_cons, run_append]
    cases x with
    | id x =>
      simp only [pathWf, Bool.and_eq_true] at h
      have ha : a = true := h.1
      subst ha
      obtain ⟨a', e⟩ := ih h.2 (p := p ++ PElem.canon (.id x))
      rw [List.append_assoc] at e
      exact ⟨a', by rw [run_id, if_pos rfl]; exact e⟩
    | sep j =>
      simp only [pathWf] at h
      obtain ⟨a', e⟩ := ih h (p := p ++ PElem.canon (.sep j))
      rw [List.append_assoc] at e
      exact ⟨a', by rw [run_sep]; exact e⟩
    | ang j ts j' =>
      simp only [pathWf, Bool.and_eq_true] at h
      obtain ⟨a', e⟩ := ih h.2 (p := p ++ PElem.canon (.ang j ts j'))
      rw [List.append_assoc] at e
      exact ⟨a', by rw [run_ang h.1]; exact e⟩

theorem pathCanon_ne_nil {q : List PElem} (h : q ≠ []) : pathCanon q ≠ [] := by
  cases q with
  | nil => exact absurd rfl h
  | cons x q => cases x <;> simp [pathCanon, PElem.canon]

/-- `PSt.finish` in the normal mode. -/
theorem finish_normal {p : List Tok} {a it : Bool} {op : Option Kind} {ty : List TyExpr} :
    PSt.finish okTy ⟨.normal, p, a, it, op, ty⟩ =
      match PSt.flush okTy ⟨.normal, p, a, it, op, ty⟩ with | none => none | some s => build s.op s.types := rfl

/-- What an operand leaves: flushing gives its tree. -/
def Ready (okTy : List Tok → Bool) (e : TyExpr) (it : Bool) (op : Option Kind) (ty : List TyExpr) (s : PSt) : Prop :=
  ∃ p a, s = ⟨.normal, p, a, it, op, if p = [] then ty ++ [e] else ty⟩ ∧ (p = [] ∨ (okTy p = true ∧ e = .ty p))

theorem Ready.flush {e : TyExpr} {it : Bool} {op : Option Kind} {ty : List TyExpr} {s : PSt} (h : Ready okTy e it op ty s)
    (op' : Option Kind) (it' : Bool) :
    PSt.flush okTy { s with op := op', inTern := it' } = some ⟨.normal, [], true, it', op', ty ++ [e]⟩ := by
  obtain ⟨p, a, rfl, hp⟩ := h
  rcases hp with rfl | ⟨hp, rfl⟩
  · simp [PSt.flush]
  · cases p with
    | nil => simp [PSt.flush]
    | cons x p => simp [PSt.flush, hp]

theorem Ready.mode {e : TyExpr} {it : Bool} {op : Option Kind} {ty : List TyExpr} {s : PSt} (h : Ready okTy e it op ty s) :
    s.mode = .normal ∧ s.op = op ∧ s.inTern = it := by
  obtain ⟨p, a, rfl, _⟩ := h; exact ⟨rfl, rfl, rfl⟩

theorem Ready.finish {e : TyExpr} {it : Bool} {op : Option Kind} {ty : List TyExpr} {s : PSt} (h : Ready okTy e it op ty s) :
    s.finish okTy = build op (ty ++ [e]) := by
  have hf := h.flush op it
  obtain ⟨hm, ho, hi⟩ := h.mode
  obtain ⟨m, p, a, i, o, t⟩ := s
  dsimp only at hm ho hi
  subst hm ho hi
  rw [finish_normal, hf]

theorem step_binop {e : TyExpr} {it : Bool} {ty : List TyExpr} {s : PSt} (h : Ready okTy e it none ty s) (op : BinOp) (j : Bool) :
    run okTy (op.render j) s = some ⟨.normal, [], true, it, some (.bin op), ty ++ [e]⟩ := by
  have hf := h.flush (some (.bin op)) it
  obtain ⟨hm, ho, hi⟩ := h.mode
  obtain ⟨m, p, a, i, o, t⟩ := s
  dsimp only at hm ho hi
  subst hm ho hi
  cases op <;>
    simp only [BinOp.render, run_cons, run_nil, Tok.item, PSt.step, PSt.punct, PSt.operator, PSt.setOp, hf,
      if_true, if_false, Char.reduceEq]

theorem step_quest {e : TyExpr} {it : Bool} {ty : List TyExpr} {s : PSt} (h : Ready okTy e it none ty s) (j : Bool) :
    s.step okTy (Tok.item okTy (.punct '?' j)) = some ⟨.normal, [], true, true, some .tern, ty ++ [e]⟩ := by
  have hf := h.flush (some .tern) true
  obtain ⟨hm, ho, hi⟩ := h.mode
  obtain ⟨m, p, a, i, o, t⟩ := s
  dsimp only at hm ho hi
  subst hm ho hi
  simp only [Tok.item, PSt.step, PSt.punct, PSt.setOp, hf, if_true, if_false, Char.reduceEq]

theorem step_colon {e : TyExpr} {op : Option Kind} {ty : List TyExpr} {s : PSt} (h : Ready okTy e true op ty s) :
    s.step okTy (Tok.item okTy (.punct ':' false)) = some ⟨.normal, [], true, false, op, ty ++ [e]⟩ := by
  have hf := h.flush op false
  obtain ⟨hm, ho, hi⟩ := h.mode
  obtain ⟨m, p, a, i, o, t⟩ := s
  dsimp only at hm ho hi
  subst hm ho hi
  simp only [Tok.item, PSt.step, PSt.punct, hf, if_true, Bool.false_eq_true, if_false]

theorem parse_of_run {s : Src} {s' : PSt} (h1 : run okTy s.render .init = some s') (h2 : s'.finish okTy = some s.tree) :
    parse okTy s.render = some s.tree := by
  unfold run at h1
  simp only [parse, parseItems, h1, h2]

mutual
/-- An expression is read as its tree. -/
theorem parse_src : ∀ (s : Src), s.ok okTy = true → parse okTy s.render = some s.tree
  | .opd o, h => by
    simp only [Src.ok] at h
    obtain ⟨s', e, r⟩ := run_opd o h false none []
    exact parse_of_run (s := .opd o) e r.finish
  | .not o, h => by
    simp only [Src.ok] at h
    obtain ⟨s', e, r⟩ := run_opd o h false (some .not) []
    refine parse_of_run (s := .not o) (s' := s') ?_ r.finish
    rw [Src.render, run_cons_some (s' := ⟨.normal, [], true, false, some .not, []⟩) rfl]; exact e
  | .bin op j l r, h => by
    simp only [Src.ok, Bool.and_eq_true] at h
    obtain ⟨s1, e1, r1⟩ := run_opd l h.1 false none []
    obtain ⟨s2, e2, r2⟩ := run_opd r h.2 false (some (.bin op)) ([] ++ [l.tree])
    refine parse_of_run (s := .bin op j l r) (s' := s2) ?_ r2.finish
    rw [Src.render, PSt.init, run_append_some e1, run_append_some (step_binop r1 op j)]; exact e2
  | .tern j c t f, h => by
    simp only [Src.ok, Bool.and_eq_true] at h
    obtain ⟨s1, e1, r1⟩ := run_opd c h.1 false none []
    obtain ⟨s2, e2, r2⟩ := run_opd t h.2.1 true (some .tern) ([] ++ [c.tree])
    obtain ⟨s3, e3, r3⟩ := run_opd f h.2.2 false (some .tern) ([] ++ [c.tree] ++ [t.tree])
    refine parse_of_run (s := .tern j c t f) (s' := s3) ?_ r3.finish
    rw [Src.render, PSt.init, run_append_some e1, run_cons_some (step_quest r1 j), run_append_some e2,
      run_cons_some (step_colon r2)]
    exact e3
/-- An operand. -/
theorem run_opd : ∀ (o : Opd), o.ok okTy = true → ∀ it op ty,
      ∃ s, run okTy o.render ⟨.normal, [], true, it, op, ty⟩ = some s ∧ Ready okTy o.tree it op ty s
  | .path p, h => by
    intro it op ty
    simp only [Opd.ok, Bool.and_eq_true, Bool.not_eq_true', List.isEmpty_eq_false_iff] at h
    obtain ⟨a', e⟩ := run_path (okTy := okTy) h.2.1 (p := []) (it := it) (op := op) (ty := ty)
    refine ⟨_, e, pathCanon p, a', ?_, Or.inr ⟨h.2.2, rfl⟩⟩
    rw [if_neg (pathCanon_ne_nil h.1)]; rfl
  | .paren s, h => by
    intro it op ty
    simp only [Opd.ok] at h
    have e := parse_src s h
    refine ⟨⟨.normal, [], false, it, op, ty ++ [s.tree]⟩, ?_, [], false, ?_, Or.inl rfl⟩
    · unfold parse at e
      simp only [Opd.render, run_cons, Tok.item, PSt.step, e, run_nil]
    · rw [if_pos rfl]; rfl
end

/-! ### Rejection -/

/-- Reading a piece of a path keeps the operator. -/
theorem run_elem_op {x : PElem} (h : x.ok = true) {s s' : PSt} (hm : s.mode = .normal)
    (e : run okTy x.render s = some s') : s'.mode = .normal ∧ s'.op = s.op := by
  obtain ⟨m, p, a, it, op, ty⟩ := s
  dsimp only at hm; subst hm
  cases x with
  | id x =>
    rw [run_id] at e
    split at e
    · cases e; exact ⟨rfl, rfl⟩
    · cases e
  | sep j => rw [run_sep] at e; cases e; exact ⟨rfl, rfl⟩
  | ang j ts j' => rw [run_ang h] at e; cases e; exact ⟨rfl, rfl⟩

theorem run_split {a b : List Tok} {s s' : PSt} (h : run okTy (a ++ b) s = some s') :
    ∃ m, run okTy a s = some m ∧ run okTy b m = some s' := by
  rw [run_append] at h
  cases e : run okTy a s with
  | none => rw [e] at h; cases h
  | some m => rw [e] at h; exact ⟨m, rfl, h⟩

theorem run_path_op {q : List PElem} (h : q.all PElem.ok = true) {s s' : PSt} (hm : s.mode = .normal)
    (e : run okTy (pathRender q) s = some s') : s'.mode = .normal ∧ s'.op = s.op := by
  induction q generalizing s with
  | nil => cases e; exact ⟨hm, rfl⟩
  | cons x q ih =>
    simp only [List.all_cons, Bool.and_eq_true] at h
    simp only [pathRender, List.flatMap_cons] at e
    obtain ⟨m, e1, e2⟩ := run_split e
    obtain ⟨h1, h2⟩ := run_elem_op h.1 hm e1
    obtain ⟨h3, h4⟩ := ih h.2 h1 e2
    exact ⟨h3, h4.trans h2⟩

theorem flush_op {s s' : PSt} (e : s.flush okTy = some s') : s'.mode = s.mode ∧ s'.op = s.op := by
  unfold PSt.flush at e
  split at e
  · cases e; exact ⟨rfl, rfl⟩
  · split at e
    · cases e; exact ⟨rfl, rfl⟩
    · cases e

theorem setOp_op {s s' : PSt} {k : Kind} (e : s.setOp k = some s') : s.op = none ∧ s'.mode = s.mode ∧ s'.op = some k := by
  unfold PSt.setOp at e
  cases h : s.op with
  | none => rw [h] at e; cases e; exact ⟨rfl, rfl, rfl⟩
  | some _ => rw [h] at e; cases e

theorem operator_op {s s' : PSt} {k : Kind} (e : s.operator okTy k = some s') :
    s.op = none ∧ s'.mode = s.mode ∧ s'.op = some k := by
  unfold PSt.operator at e
  cases h : s.setOp k with
  | none => rw [h] at e; cases e
  | some m =>
    rw [h] at e
    obtain ⟨a, b, c⟩ := setOp_op h
    obtain ⟨d, f⟩ := flush_op e
    exact ⟨a, d.trans b, f.trans c⟩

/-- A piece: operators need that there was none before and leave one, the rest keeps what there was. -/
theorem run_chunk_op {c : Chunk} (h : c.ok = true) {s s' : PSt} (hm : s.mode = .normal)
    (e : run okTy c.render s = some s') : s'.mode = .normal ∧
      (if c.isOp then s.op = none ∧ s'.op ≠ none else s'.op = s.op) := by
  obtain ⟨m, p, a, it, op, ty⟩ := s
  dsimp only at hm; subst hm
  cases c with
  | path q =>
    simp only [Chunk.ok, Bool.and_eq_true] at h
    exact run_path_op h.2 rfl e
  | group g =>
    simp only [Chunk.render, run_cons, Tok.item, PSt.step] at e
    split at e
    · cases e
    · rename_i x heq
      split at heq
      · cases heq
      · cases heq; cases e; exact ⟨rfl, rfl⟩
  | bin o j =>
    have : PSt.operator okTy ⟨.normal, p, a, it, op, ty⟩ (.bin o) = some s' := by
      cases o <;>
        simp only [Chunk.render, BinOp.render, run_cons, run_nil, Tok.item, PSt.step, PSt.punct, if_true, if_false, Char.reduceEq] at e <;>
        (split at e <;> cases e) <;> assumption
    obtain ⟨h1, h2, h3⟩ := operator_op this
    exact ⟨h2, h1, by rw [h3]; exact nofun⟩
  | not =>
    simp only [Chunk.render, run_cons, run_nil, Tok.item, PSt.step, PSt.punct, if_false, if_true, Char.reduceEq] at e
    cases h : PSt.setOp ⟨.normal, p, a, it, op, ty⟩ .not with
    | none => simp [h] at e
    | some m =>
      obtain ⟨h1, h2, h3⟩ := setOp_op h
      cases hp : p.isEmpty <;> simp [h, hp] at e
      subst e
      exact ⟨h2, h1, by rw [h3]; exact nofun⟩
  | quest j =>
    simp only [Chunk.render, run_cons, run_nil, Tok.item, PSt.step, PSt.punct, if_false, if_true, Char.reduceEq] at e
    cases h : PSt.setOp ⟨.normal, p, a, it, op, ty⟩ .tern with
    | none => simp [h] at e
    | some m =>
      obtain ⟨h1, h2, h3⟩ := setOp_op h
      simp only [h] at e
      cases h' : PSt.flush okTy { m with inTern := true } with
      | none => simp [h'] at e
      | some m' =>
        obtain ⟨d, f⟩ := flush_op h'
        simp only [h'] at e
        cases e
        exact ⟨d.trans h2, h1, by rw [f]; dsimp only; rw [h3]; exact nofun⟩
  | colon =>
    simp only [Chunk.render, run_cons, run_nil, Tok.item, PSt.step, PSt.punct, if_false, if_true, Bool.false_eq_true] at e
    cases it with
    | false => simp at e
    | true =>
      cases h' : PSt.flush okTy ⟨.normal, p, a, false, op, ty⟩ with
      | none => simp [h'] at e
      | some m' =>
        obtain ⟨d, f⟩ := flush_op h'
        simp only [h', if_true] at e
        cases e
        exact ⟨d, f⟩

/-- After an operator no other is accepted. -/
theorem run_chunks_op {cs : List Chunk} (h : ∀ c ∈ cs, c.ok = true) {s s' : PSt} (hm : s.mode = .normal)
    (e : run okTy (cs.flatMap Chunk.render) s = some s') :
    (s.op ≠ none → cs.countP Chunk.isOp = 0) ∧ cs.countP Chunk.isOp ≤ 1 := by
  induction cs generalizing s with
  | nil => exact ⟨fun _ => rfl, Nat.zero_le _⟩
  | cons c cs ih =>
    simp only [List.flatMap_cons] at e
    obtain ⟨m, e1, e2⟩ := run_split e
    obtain ⟨h1, h2⟩ := run_chunk_op (h c List.mem_cons_self) hm e1
    obtain ⟨i1, i2⟩ := ih (fun c hc => h c (List.mem_cons_of_mem _ hc)) h1 e2
    rw [List.countP_cons]
    split at h2
    · rename_i hop
      rw [if_pos hop]
      have := i1 h2.2
      exact ⟨fun hn => absurd h2.1 hn, by omega⟩
    · rename_i hop
      rw [if_neg hop]
      exact ⟨fun hn => by have := i1 (by rw [h2]; exact hn); omega, by omega⟩

theorem parse_run {ts : List Tok} {e : TyExpr} (h : parse okTy ts = some e) :
    ∃ s, run okTy ts .init = some s ∧ s.finish okTy = some e := by
  unfold parse parseItems at h
  unfold run
  cases h' : loop okTy (items okTy ts) .init with
  | none => rw [h'] at h; cases h
  | some s => rw [h'] at h; exact ⟨s, rfl, h⟩

/-! ### Values -/

/-- What a type-level number or boolean denotes. -/
def TVal.den : TVal → Val
  | .num u => .num u.val
  | .bit b => .bool b

theorem resolve_value (env : List Tok → Option TVal) (e : TyExpr) :
    (resolve env (tyeval e)).map TVal.den = e.value distance (fun p => (env p).map TVal.den) := by
  induction e with
  | ty p => rfl
  | not e ih =>
    simp only [tyeval, resolve, TyExpr.value, ← ih]
    cases resolve env (tyeval e) with
    | none => rfl
    | some v => cases v with
      | num u => rfl
      | bit b => cases b <;> rfl
  | tern c t f ic it jf =>
    simp only [tyeval, resolve, TyExpr.value, ← ic, ← it, ← jf]
    rcases resolve env (tyeval c) with _ | (_ | b) <;> rcases resolve env (tyeval t) with _ | (_ | _) <;>
      rcases resolve env (tyeval f) with _ | (_ | _) <;> first | rfl | (cases b <;> rfl)
  | bin o l r il ir =>
    simp only [tyeval, resolve, TyExpr.value, ← il, ← ir]
    rcases resolve env (tyeval l) with _ | (a | _) <;> rcases resolve env (tyeval r) with _ | (b | _) <;>
      cases o <;> try rfl
    · simp only [BinOp.assoc, Option.map_some, TVal.den, U.val_add]
    · simp only [BinOp.assoc, Option.map_some, TVal.den, U.val_absSub, distance, U.absDiff]
      split <;> split <;> first | rfl | (congr 2; omega) | (congr 2)
    · simp only [BinOp.assoc, Option.map_some, TVal.den]
      by_cases hp : b.isPow2 = true
      · have := U.isPow2_spec hp
        rw [if_pos hp, if_pos (by rw [this, Nat.log2_two_pow])]
        simp only [Option.map_some, TVal.den, U.mod, U.val_modulate hp]
      · rw [if_neg hp, if_neg (fun h => hp (U.isPow2_of_val h))]; rfl
    · simp only [BinOp.assoc, Option.map_some, TVal.den, U.bitOr, U.val_simplified, U.val_bitOrInner]
    · simp only [BinOp.assoc, Option.map_some, TVal.den, U.bitAnd, U.val_simplified, U.val_bitAndInner]
    · simp only [BinOp.assoc, Option.map_some, TVal.den, Option.some.injEq, Val.bool.injEq]
      rw [Bool.eq_iff_iff, U.equal_iff, decide_eq_true_iff]

end Verif.Macros
