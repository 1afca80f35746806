import Verif.Macros.TyOpsLevel
/-!
# C49: `tyeval!`

`Src` (in `Verif.Macros.TyOpsSpec`) are the expressions: one operator at most, whose operands are paths or expressions in
parentheses; `render` is how they are written, `tree` how they are grouped.  `parse` is the macro's parser, `tyeval` its
translation, and `resolve` what the compiler makes of the produced type (by the model of type-level numbers).
-/
namespace Verif.Props.TyOps
open Verif.Macros Verif.Typenum

variable {okTy : List Tok → Bool}

/-- Every expression is accepted, and grouped exactly as its parentheses say. -/
theorem C49_parse (s : Src) (h : s.ok okTy = true) : parse okTy s.render = some s.tree := parse_src s h

/-- Conversely, a sequence of operands and operators in which no two operands are side by side is accepted only if it is one
operand, `! a`, `a op b`, `a ? b : c` or `(a) !`, and each operand is accepted; everything else is rejected. -/
theorem C49_accepted_partial (cs : List Chunk) (hk : ∀ c ∈ cs, c.ok = true) (ha : apart cs = true) (e : TyExpr)
    (h : parse okTy (cs.flatMap Chunk.render) = some e) :
    (∃ c x, cs = [c] ∧ c.isOpd = true ∧ c.tree okTy = some x ∧ e = x) ∨
    (∃ c x, cs = [.not, c] ∧ c.isOpd = true ∧ c.tree okTy = some x ∧ e = .not x) ∨
    (∃ o j l r x y, cs = [l, .bin o j, r] ∧ l.isOpd = true ∧ r.isOpd = true ∧ l.tree okTy = some x ∧ r.tree okTy = some y ∧
      e = .bin o x y) ∨
    (∃ j c t f x y z, cs = [c, .quest j, t, .colon, f] ∧ c.isOpd = true ∧ t.isOpd = true ∧ f.isOpd = true ∧
      c.tree okTy = some x ∧ t.tree okTy = some y ∧ f.tree okTy = some z ∧ e = .tern x y z) ∨
    (∃ ts x, cs = [.group ts, .not] ∧ parse okTy ts = some x ∧ e = .not x) :=
  accepted hk ha h

/-- Two operators without parentheses are rejected, whatever else there is. -/
theorem C49_ambiguous (cs : List Chunk) (hk : ∀ c ∈ cs, c.ok = true) (h : 2 ≤ cs.countP Chunk.isOp) :
    parse okTy (cs.flatMap Chunk.render) = none := by
  cases e : parse okTy (cs.flatMap Chunk.render) with
  | none => rfl
  | some x =>
    obtain ⟨s, h1, _⟩ := parse_run e
    have := (run_chunks_op hk (s := .init) rfl h1).2
    omega

/-- So is anything with a group that is rejected. -/
theorem C49_nested (cs : List Chunk) (hk : ∀ c ∈ cs, c.ok = true) (ts rest : List Tok) (h : parse okTy ts = none) :
    parse okTy (cs.flatMap Chunk.render ++ .group ts :: rest) = none := bad_group hk h

/-- No operand is dropped, also where operands are side by side: the groups of an accepted sequence are, in their order, among the
operands of the tree; without operator there is one operand only, the tree itself. -/
theorem C49_kept (cs : List Chunk) (hk : ∀ c ∈ cs, c.ok = true) (e : TyExpr) (h : parse okTy (cs.flatMap Chunk.render) = some e) :
    ∃ xs gs, (groupsOf cs).map (parse okTy) = gs.map some ∧ List.Sublist gs xs ∧
      ((xs = [e] ∧ cs.countP Chunk.isOp = 0) ∨ xs = e.operands) := kept hk h

/-- `(A)(B)` is rejected, so is `(A)(B)(C) +`. -/
example : parse (fun _ => true) [.group [.ident "A"], .group [.ident "B"]] = none ∧
    parse (fun _ => true) [.group [.ident "A"], .group [.ident "B"], .group [.ident "C"], .punct '+' false] = none := ⟨rfl, rfl⟩

/-- Literals are rejected. -/
theorem C49_literal (cs : List Chunk) (hk : ∀ c ∈ cs, c.ok = true) (rest : List Tok) :
    parse okTy (cs.flatMap Chunk.render ++ .lit :: rest) = none := bad_lit hk

/-- The type that is produced denotes the value of the tree, where `-` is the distance between its operands; there is a type
exactly if there is a value. -/
theorem C49_value (env : List Tok → Option TVal) (e : TyExpr) :
    (resolve env (tyeval e)).map TVal.den = e.value distance (fun p => (env p).map TVal.den) := resolve_value env e

/-- With the usual subtraction: if the expression has a value, that is the value of the type.  What is missing: where the usual
subtraction has no value, there is a type all the same (`C49_sub_refuted`). -/
theorem C49_usual_partial (env : List Tok → Option TVal) (s : Src) (h : s.ok okTy = true) (v : Val)
    (hv : s.tree.value usualSub (fun p => (env p).map TVal.den) = some v) :
    ∃ e, parse okTy s.render = some e ∧ (resolve env (tyeval e)).map TVal.den = some v := by
  refine ⟨s.tree, parse_src s h, ?_⟩
  rw [resolve_value]
  generalize (fun p => (env p).map TVal.den) = env' at *
  generalize s.tree = t at *
  clear h
  have key : ∀ x y z, usualSub x y = some z → distance x y = some z := by
    intro x y z h
    unfold usualSub at h; unfold distance
    split at h
    · rename_i hl; rw [if_pos hl]; exact h
    · cases h
  induction t generalizing v with
  | ty p => exact hv
  | not e ih =>
    simp only [TyExpr.value] at hv ⊢
    cases he : e.value usualSub env' with
    | none => rw [he] at hv; cases hv
    | some w => rw [he] at hv; rw [ih w he]; exact hv
  | tern c t f ic it jf =>
    simp only [TyExpr.value] at hv ⊢
    cases hc : c.value usualSub env' with
    | none => rw [hc] at hv; cases hv
    | some w1 =>
      cases ht : t.value usualSub env' with
      | none => rw [hc, ht] at hv; cases w1 <;> cases hv
      | some w2 =>
        cases hf : f.value usualSub env' with
        | none => rw [hc, ht, hf] at hv; cases w1 <;> cases w2 <;> cases hv
        | some w3 => rw [hc, ht, hf] at hv; rw [ic _ hc, it _ ht, jf _ hf]; exact hv
  | bin o l r il ir =>
    simp only [TyExpr.value] at hv ⊢
    cases hl : l.value usualSub env' with
    | none => rw [hl] at hv; cases hv
    | some w1 =>
      cases hr : r.value usualSub env' with
      | none => rw [hl, hr] at hv; cases w1 <;> cases hv
      | some w2 =>
        rw [hl, hr] at hv; rw [il _ hl, ir _ hr]
        cases w1 <;> cases w2 <;> try exact hv
        cases o <;> try exact hv
        rename_i x y
        dsimp only at hv ⊢
        cases hs : usualSub x y with
        | none => rw [hs] at hv; cases hv
        | some z => rw [key x y z hs]; rw [hs] at hv; exact hv

/-- `-` is not the usual subtraction: `A - B` with `A` three and `B` five is a number, and it is two. -/
theorem C49_sub_refuted : ∃ (env : List Tok → Option TVal) (e : TyExpr),
    e.value usualSub (fun p => (env p).map TVal.den) = none ∧ (resolve env (tyeval e)).map TVal.den = some (.num 2) := by
  refine ⟨fun p => match p with | [.ident "A"] => some (.num (U.ofNat 3)) | _ => some (.num (U.ofNat 5)),
    .bin .sub (.ty [.ident "A"]) (.ty [.ident "B"]), ?_, ?_⟩ <;> decide +kernel

/-- Operands side by side are not rejected, and a group comes before the path it follows: `A (B) -` is read as `B - A`. -/
theorem C49_juxtaposed_refuted : ∃ ts : List Tok, ts = [.ident "A", .group [.ident "B"], .punct '-' false] ∧
    parse (fun _ => true) ts = some (.bin .sub (.ty [.ident "B"]) (.ty [.ident "A"])) :=
  ⟨_, rfl, rfl⟩

/-- The `:` of a conditional is not needed: `(A)(B)(C) ?` is read as `A ? B : C`. -/
theorem C49_colon_refuted : ∃ ts : List Tok,
    ts = [.group [.ident "A"], .group [.ident "B"], .group [.ident "C"], .punct '?' false] ∧
    parse (fun _ => true) ts = some (.tern (.ty [.ident "A"]) (.ty [.ident "B"]) (.ty [.ident "C"])) :=
  ⟨_, rfl, rfl⟩

/-- A bracket that is never closed is closed silently: `A < B` is read as the type `A < B >`. -/
theorem C49_unclosed_refuted : ∃ ts : List Tok, ts = [.ident "A", .punct '<' false, .ident "B"] ∧
    parse (fun _ => true) ts = some (.ty [.ident "A", .punct '<' false, .ident "B", .punct '>' false]) :=
  ⟨_, rfl, rfl⟩

-- `(A + <B as C>::D) == X::Y ? Z : (!W)` with the condition in parentheses.
example : Src.ok (fun _ => true)
    (.tern false (.paren (.bin .eq false (.paren (.bin .add false (.path [.id "A"])
        (.path [.ang false [.ident "B", .ident "as", .ident "C"] true, .sep false, .id "D"])))
        (.path [.id "X", .sep false, .id "Y"]))) (.path [.id "Z"]) (.paren (.not (.path [.id "W"])))) = true := rfl
-- `A + B - C` is made of pieces, none side by side, and has two operators.
example : 2 ≤ [Chunk.path [.id "A"], .bin .add false, .path [.id "B"], .bin .sub false, .path [.id "C"]].countP Chunk.isOp ∧
    apart [Chunk.path [.id "A"], .bin .add false, .path [.id "B"], .bin .sub false, .path [.id "C"]] = true :=
  ⟨Nat.le_refl 2, rfl⟩
-- `A - B` is accepted and means the difference.
example : parse (fun _ => true) ([Chunk.path [.id "A"], .bin .sub false, .path [.id "B"]].flatMap Chunk.render) =
    some (.bin .sub (.ty [.ident "A"]) (.ty [.ident "B"])) := rfl
-- `(A + B + C)` is a rejected group.
example : parse (fun _ => true) [.ident "A", .punct '+' false, .ident "B", .punct '+' false, .ident "C"] = none := rfl
-- (7 % 4) + 5 = 8.
example : TyExpr.value usualSub
    (fun p => match p with | [.ident "A"] => some (.num 7) | [.ident "B"] => some (.num 4) | _ => some (.num 5))
    (.bin .add (.bin .rem (.ty [.ident "A"]) (.ty [.ident "B"])) (.ty [])) = some (.num 8) := by decide +kernel

end Verif.Props.TyOps
