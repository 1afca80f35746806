import Verif.Macros.Written

/-! C83: types in the signatures of traits are understood as they are written. -/
namespace Verif.Props.Written
open Verif.Macros.Traits (Ident Lt Ty OTy Tys Args Gens)
open Verif.Macros.Written

/-! ### How Rust reads the tokens of types

The part of Rust's grammar (reference, "Types" and "Paths") that covers the types which the macro can represent, with tuples and parentheses.  The
number bounds the depth of the recursion. -/

/-- An optional lifetime. -/
def pLifetime : List Tok → Option Lt × List Tok
  | .lifetime l :: r => (some l, r)
  | r => (none, r)

/-- An optional keyword. -/
def pFlag (t : Tok) : List Tok → Bool × List Tok
  | [] => (false, [])
  | u :: r => if u = t then (true, r) else (false, u :: r)

def pBinder : List Tok → Option Nat × List Tok
  | .binder n :: r => (some n, r)
  | r => (none, r)

def pAbi : List Tok → Option Nat × List Tok
  | .abi n :: r => (some n, r)
  | r => (none, r)

/-- Number of segments. -/
def Segs.length : Segs → Nat
  | .nil => 0
  | .self r => Segs.length r + 1
  | .seg _ _ r => Segs.length r + 1

def Segs.append : Segs → Segs → Segs
  | .nil, s => s
  | .self r, s => .self (Segs.append r s)
  | .seg i a r, s => .seg i a (Segs.append r s)

mutual

def pType : Nat → List Tok → Option (Syn × List Tok)
  | 0, _ => none
  | n + 1, ts =>
    match ts with
    | .bang :: r => some (.never, r)
    | .lparen :: r => match pTypes n r with
      | some (.cons t .nil, false, .rparen :: r) => some (.paren t, r)
      | some (l, _, .rparen :: r) => some (.tuple l, r)
      | _ => none
    | .amp :: r =>
      let (l, r) := pLifetime r
      let (m, r) := pFlag .mut r
      (pType n r).map fun (t, r) => (.reference l m t, r)
    | .star :: .const :: r => (pType n r).map fun (t, r) => (.ptr false t, r)
    | .star :: .mut :: r => (pType n r).map fun (t, r) => (.ptr true t, r)
    | .lbrack :: r => match pType n r with
      | some (t, .semi :: .lit k :: .rbrack :: r) => some (.array t k, r)
      | _ => none
    | .lt :: r => match pType n r with
      | some (t, .as :: r) =>
        let (c, r) := pFlag .colon2 r
        match pSegs n r with
        | some (a, .gt :: .colon2 :: r) => (pSegs n r).map fun (s, r) => (.path (.some t (Segs.length a)) c (Segs.append a s), r)
        | _ => none
      | some (t, .gt :: .colon2 :: r) => (pSegs n r).map fun (s, r) => (.path (.some t 0) true s, r)
      | _ => none
    | .pre p :: .colon2 :: r => (pSegs n r).map fun (s, r) => (.path (.pre p) false s, r)
    | .colon2 :: r => (pSegs n r).map fun (s, r) => (.path .none true s, r)
    | .id i :: r => (pSegs n (.id i :: r)).map fun (s, r) => (.path .none false s, r)
    | .self :: r => (pSegs n (.self :: r)).map fun (s, r) => (.path .none false s, r)
    | r =>
      let (l, r) := pBinder r
      let (u, r) := pFlag .unsafety r
      let (a, r) := pAbi r
      match r with
      | .fn :: .lparen :: r => match pTypes n r with
        | some (i, _, .rparen :: .arrow :: r) => (pType n r).map fun (o, r) => (.bareFn l u a i (.some o), r)
        | some (i, _, .rparen :: r) => some (.bareFn l u a i .none, r)
        | _ => none
      | _ => none

/-- Types separated by commas up to `)`, and whether there is a comma at the end. -/
def pTypes : Nat → List Tok → Option (Syns × Bool × List Tok)
  | 0, _ => none
  | n + 1, ts =>
    match ts with
    | .rparen :: r => some (.nil, true, .rparen :: r)
    | r => match pType n r with
      | some (t, .comma :: r) => (pTypes n r).map fun (l, c, r) => (.cons t l, c, r)
      | some (t, r) => some (.cons t .nil, false, r)
      | none => none

/-- The segments of a path. -/
def pSegs : Nat → List Tok → Option (Segs × List Tok)
  | 0, _ => none
  | n + 1, ts =>
    match ts with
    | .self :: .colon2 :: .id i :: r => (pSegs n (.id i :: r)).map fun (s, r) => (.self s, r)
    | .self :: .colon2 :: .self :: r => (pSegs n (.self :: r)).map fun (s, r) => (.self s, r)
    | .self :: r => some (.self .nil, r)
    | .id i :: r => match pArgs n r with
      | some (a, .colon2 :: .id j :: r) => (pSegs n (.id j :: r)).map fun (s, r) => (.seg i a s, r)
      | some (a, .colon2 :: .self :: r) => (pSegs n (.self :: r)).map fun (s, r) => (.seg i a s, r)
      | some (a, r) => some (.seg i a .nil, r)
      | none => none
    | _ => none

/-- The arguments of a segment. -/
def pArgs : Nat → List Tok → Option (SArgs × List Tok)
  | 0, _ => none
  | n + 1, ts =>
    match ts with
    | .colon2 :: .lt :: r => (pGens n r).map fun (g, r) => (.angle g, r)
    | .lt :: r => (pGens n r).map fun (g, r) => (.angle g, r)
    | r => some (.none, r)

/-- Arguments in angle brackets and the closing bracket. -/
def pGens : Nat → List Tok → Option (SGens × List Tok)
  | 0, _ => none
  | n + 1, ts =>
    match ts with
    | .gt :: r => some (.nil, r)
    | .lifetime l :: .comma :: r => (pGens n r).map fun (g, r) => (.lifetime l g, r)
    | .lifetime l :: .gt :: r => some (.lifetime l .nil, r)
    | .gen k :: .comma :: r => (pGens n r).map fun (g, r) => (.other k g, r)
    | .gen k :: .gt :: r => some (.other k .nil, r)
    | r => match pType n r with
      | some (t, .comma :: r) => (pGens n r).map fun (g, r) => (.type t g, r)
      | some (t, .gt :: r) => some (.type t .nil, r)
      | _ => none

end

/-- The type that Rust reads from tokens, all of them. -/
def reads (ts : List Tok) : Option Syn :=
  match pType (4 * ts.length + 4) ts with
  | some (t, []) => some t
  | _ => none

/-! ### What a `Ty` stands for -/

mutual

def back : Ty → Option Syn
  | .never => some .never
  | .unit => some (.tuple .nil)
  | .arbitrary p n => (segs n).map fun s => .path (.pre p) false s
  | .selfRef t => (segs t).map fun s => .path .none false (.self s)
  | .reference l m e => (back e).map (.reference l m)
  | .ptr c m e => if c = m then none else (back e).map (.ptr m)
  | .array e n => (back e).map (.array · n)
  | .bareFn l u a i o => (backTys i).bind fun i => (back o).map fun o => .bareFn l u a i (.some o)
  | .path g a n => (backArgs a).bind fun a => (segsO n).map fun s => .path .none false (.seg g a s)
  | .leadingColon n => (segs n).map fun s => .path .none true s
  | .qualified t a n => (back t).bind fun t => (segs a).bind fun a => (segs n).map fun s => .path (.some t (Segs.length a)) false (Segs.append a s)

/-- The segments of a path. -/
def segs : Ty → Option Segs
  | .selfRef t => (segs t).map .self
  | .path g a n => (backArgs a).bind fun a => (segsO n).map fun s => .seg g a s
  | _ => none

def segsO : OTy → Option Segs
  | .none => some .nil
  | .some t => segs t

def backTys : Tys → Option Syns
  | .nil => some .nil
  | .cons t ts => (back t).bind fun t => (backTys ts).map (.cons t)

def backArgs : Args → Option SArgs
  | .none => some .none
  | .angle gs => (backGens gs).map .angle

def backGens : Gens → Option SGens
  | .nil => some .nil
  | .lifetime l gs => (backGens gs).map (.lifetime l)
  | .type t gs => (back t).bind fun t => (backGens gs).map (.type t)
  | .other k gs => (backGens gs).map (.other k)

end

/-! ### What is written is read as what is meant -/

/-- Tokens that don't continue a path. -/
def Ends : List Tok → Prop
  | .colon2 :: _ => False
  | .lt :: _ => False
  | _ => True

/-- Tokens with which types begin. -/
def begins : Tok → Bool
  | .id _ | .self | .binder _ | .abi _ | .pre _ | .amp | .star | .fn | .unsafety | .bang | .lparen | .lbrack | .colon2 | .lt => true
  | _ => false

theorem print_head (t : Ty) : ∃ k r, print t = k :: r ∧ begins k = true := by
  cases t
  case bareFn l u a i o => cases l <;> cases u <;> cases a <;> exact ⟨_, _, rfl, rfl⟩
  all_goals exact ⟨_, _, rfl, rfl⟩

theorem segs_head (t : Ty) {s : Segs} (h : segs t = some s) : (∃ i r, print t = .id i :: r) ∨ (∃ r, print t = .self :: r) := by
  cases t <;> simp [segs, Option.bind_eq_some_iff] at h
  · exact .inr ⟨_, rfl⟩
  · exact .inl ⟨_, _, rfl⟩

mutual

theorem type_ok : ∀ (ty : Ty) (t : Syn), back ty = some t → ∀ rest, Ends rest → ∀ n, 4 * (print ty).length + 2 ≤ n →
    pType n (print ty ++ rest) = some (t, rest)
  | _, _, _, _, _, 0, hn => by omega
  | .never, t, h, rest, hr, n + 1, hn => by
    simp [back, Option.bind_eq_some_iff] at h
    simp [print, pType, h]
  | .unit, t, h, rest, hr, n + 1, hn => by
    simp [back, Option.bind_eq_some_iff] at h
    simp [print] at hn
    obtain ⟨n, rfl⟩ : ∃ m, n = m + 1 := ⟨n - 1, by omega⟩
    simp [print, pType, pTypes, h]
  | .arbitrary p m, t, h, rest, hr, n + 1, hn => by
    simp [back, Option.bind_eq_some_iff] at h
    obtain ⟨s, h1, rfl⟩ := h
    simp [print] at hn
    simp [print, pType, segs_ok m s h1 rest hr n (by omega)]
  | .selfRef u, t, h, rest, hr, n + 1, hn => by
    simp [back, Option.bind_eq_some_iff] at h
    obtain ⟨s, h1, rfl⟩ := h
    have := segs_ok (.selfRef u) (.self s) (by simp [segs, h1]) rest hr n (by omega)
    simp only [print, List.cons_append] at this ⊢
    simp [pType, this]
  | .reference l m e, t, h, rest, hr, n + 1, hn => by
    simp [back, Option.bind_eq_some_iff] at h
    obtain ⟨s, h1, rfl⟩ := h
    obtain ⟨k, r, hk, hb⟩ := print_head e
    simp [print] at hn
    have := type_ok e s h1 rest hr n (by omega)
    rw [hk] at this
    cases l <;> cases m <;> cases k <;> simp [begins] at hb <;>
      simp_all [print, pType, pLifetime, pFlag, opt, flag]
  | .ptr c m e, t, h, rest, hr, n + 1, hn => by
    simp [back, Option.bind_eq_some_iff] at h
    obtain ⟨hc, s, h1, rfl⟩ := h
    simp [print] at hn
    have := type_ok e s h1 rest hr n (by omega)
    cases c <;> cases m <;> simp at hc <;> simp [print, pType, flag, this]
  | .array e k, t, h, rest, hr, n + 1, hn => by
    simp [back, Option.bind_eq_some_iff] at h
    obtain ⟨s, h1, rfl⟩ := h
    simp [print] at hn
    have := type_ok e s h1 (.semi :: .lit k :: .rbrack :: rest) trivial n (by omega)
    simp [print, pType, this]
  | .bareFn l u a i o, t, h, rest, hr, n + 1, hn => by
    simp [back, Option.bind_eq_some_iff] at h
    obtain ⟨i', h1, o', h2, rfl⟩ := h
    simp [print] at hn
    have h3 := tys_ok i i' h1 (.arrow :: (print o ++ rest)) n (by omega)
    have h4 := type_ok o o' h2 rest hr n (by omega)
    cases l <;> cases u <;> cases a <;> simp [print, pType, pBinder, pFlag, pAbi, opt, flag, h3, h4]
  | .path g a m, t, h, rest, hr, n + 1, hn => by
    simp [back, Option.bind_eq_some_iff] at h
    obtain ⟨a', h1, s, h2, rfl⟩ := h
    have := segs_ok (.path g a m) (.seg g a' s) (by simp [segs, h1, h2]) rest hr n (by omega)
    simp only [print, List.cons_append, List.append_assoc] at this ⊢
    simp [pType, this]
  | .leadingColon m, t, h, rest, hr, n + 1, hn => by
    simp [back, Option.bind_eq_some_iff] at h
    obtain ⟨s, h1, rfl⟩ := h
    simp [print] at hn
    simp [print, pType, segs_ok m s h1 rest hr n (by omega)]
  | .qualified u a m, t, h, rest, hr, n + 1, hn => by
    simp [back, Option.bind_eq_some_iff] at h
    obtain ⟨u', h1, a', h2, s, h3, rfl⟩ := h
    simp [print] at hn
    have h4 := type_ok u u' h1 (.as :: (print a ++ .gt :: .colon2 :: (print m ++ rest))) trivial n (by omega)
    have h5 := segs_ok a a' h2 (.gt :: .colon2 :: (print m ++ rest)) trivial n (by omega)
    have h6 := segs_ok m s h3 rest hr n (by omega)
    have h7 : pFlag .colon2 (print a ++ .gt :: .colon2 :: (print m ++ rest)) = (false, print a ++ .gt :: .colon2 :: (print m ++ rest)) := by
      rcases segs_head a h2 with ⟨i, r, hi⟩ | ⟨r, hi⟩ <;> simp [hi, pFlag]
    simp [print, pType, h4, h5, h6, h7]

theorem segs_ok : ∀ (ty : Ty) (s : Segs), segs ty = some s → ∀ rest, Ends rest → ∀ n, 4 * (print ty).length + 1 ≤ n →
    pSegs n (print ty ++ rest) = some (s, rest)
  | _, _, _, _, _, 0, hn => by omega
  | .selfRef u, t, h, rest, hr, n + 1, hn => by
    simp [segs, Option.bind_eq_some_iff] at h
    obtain ⟨s, h1, rfl⟩ := h
    simp [print] at hn
    have := segs_ok u s h1 rest hr n (by omega)
    rcases segs_head u h1 with ⟨i, r, hi⟩ | ⟨r, hi⟩ <;> simp [hi] at this <;> simp [print, pSegs, hi, this]
  | .path g a m, t, h, rest, hr, n + 1, hn => by
    simp [segs, Option.bind_eq_some_iff] at h
    obtain ⟨a', h1, s, h2, rfl⟩ := h
    simp [print] at hn
    cases m with
    | none =>
      simp [segsO] at h2
      subst h2
      have := args_ok a a' h1 rest (fun r => ⟨fun e => by subst e; exact hr, fun e => by subst e; exact hr⟩) n (by simp [printO] at hn; omega)
      simp only [print, printO, List.append_nil, List.cons_append, pSegs, this]
      cases rest with
      | nil => rfl
      | cons k r => cases k <;> simp [Ends] at hr <;> rfl
    | some u =>
      simp [segsO] at h2
      simp [printO] at hn
      have h3 := args_ok a a' h1 (.colon2 :: (print u ++ rest))
        (by rcases segs_head u h2 with ⟨i, r, hi⟩ | ⟨r, hi⟩ <;> simp [hi]) n (by omega)
      have h4 := segs_ok u s h2 rest hr n (by omega)
      rcases segs_head u h2 with ⟨i, r, hi⟩ | ⟨r, hi⟩ <;> simp [hi] at h3 h4 <;> simp [print, printO, pSegs, hi, h3, h4]
  | .never, _, h, _, _, _ + 1, _ => by simp [segs, Option.bind_eq_some_iff] at h
  | .unit, _, h, _, _, _ + 1, _ => by simp [segs, Option.bind_eq_some_iff] at h
  | .arbitrary _ _, _, h, _, _, _ + 1, _ => by simp [segs, Option.bind_eq_some_iff] at h
  | .reference _ _ _, _, h, _, _, _ + 1, _ => by simp [segs, Option.bind_eq_some_iff] at h
  | .ptr _ _ _, _, h, _, _, _ + 1, _ => by simp [segs, Option.bind_eq_some_iff] at h
  | .array _ _, _, h, _, _, _ + 1, _ => by simp [segs, Option.bind_eq_some_iff] at h
  | .bareFn _ _ _ _ _, _, h, _, _, _ + 1, _ => by simp [segs, Option.bind_eq_some_iff] at h
  | .leadingColon _, _, h, _, _, _ + 1, _ => by simp [segs, Option.bind_eq_some_iff] at h
  | .qualified _ _ _, _, h, _, _, _ + 1, _ => by simp [segs, Option.bind_eq_some_iff] at h

theorem tys_ok : ∀ (ts : Tys) (l : Syns), backTys ts = some l → ∀ rest n, 4 * (printTys ts).length + 3 ≤ n →
    pTypes n (printTys ts ++ .rparen :: rest) = some (l, true, .rparen :: rest)
  | _, _, _, _, 0, hn => by omega
  | .nil, l, h, rest, n + 1, hn => by
    simp [backTys, Option.bind_eq_some_iff] at h
    simp [printTys, pTypes, h]
  | .cons t ts, l, h, rest, n + 1, hn => by
    simp [backTys, Option.bind_eq_some_iff] at h
    obtain ⟨t', h1, l', h2, rfl⟩ := h
    simp [printTys] at hn
    have h3 := type_ok t t' h1 (.comma :: (printTys ts ++ .rparen :: rest)) trivial n (by omega)
    have h4 := tys_ok ts l' h2 rest n (by omega)
    obtain ⟨k, r, hk, hb⟩ := print_head t
    simp only [printTys, List.append_assoc, List.cons_append]
    rw [hk] at h3 ⊢
    cases k <;> simp [begins] at hb <;> simp only [List.cons_append] at h3 ⊢ <;> simp [pTypes, h3, h4]

theorem args_ok : ∀ (a : Args) (s : SArgs), backArgs a = some s → ∀ rest, (∀ r, rest ≠ .lt :: r ∧ rest ≠ .colon2 :: .lt :: r) →
    ∀ n, 4 * (printArgs a).length + 1 ≤ n → pArgs n (printArgs a ++ rest) = some (s, rest)
  | _, _, _, _, _, 0, hn => by omega
  | .none, s, h, rest, hr, n + 1, hn => by
    simp [backArgs] at h
    subst h
    simp only [printArgs, List.nil_append, pArgs]
    split
    · next r => exact absurd rfl (hr r).2
    · next r => exact absurd rfl (hr r).1
    · rfl
  | .angle gs, s, h, rest, hr, n + 1, hn => by
    simp [backArgs] at h
    obtain ⟨g, h1, rfl⟩ := h
    simp [printArgs] at hn
    simp [printArgs, pArgs, gens_ok gs g h1 rest n (by omega)]

theorem gens_ok : ∀ (gs : Gens) (g : SGens), backGens gs = some g → ∀ rest n, 4 * (printGens gs).length + 3 ≤ n →
    pGens n (printGens gs ++ .gt :: rest) = some (g, rest)
  | _, _, _, _, 0, hn => by omega
  | .nil, g, h, rest, n + 1, hn => by
    simp [backGens, Option.bind_eq_some_iff] at h
    simp [printGens, pGens, h]
  | .lifetime l gs, g, h, rest, n + 1, hn => by
    simp [backGens, Option.bind_eq_some_iff] at h
    obtain ⟨g', h1, rfl⟩ := h
    simp [printGens] at hn
    simp [printGens, pGens, gens_ok gs g' h1 rest n (by omega)]
  | .other l gs, g, h, rest, n + 1, hn => by
    simp [backGens, Option.bind_eq_some_iff] at h
    obtain ⟨g', h1, rfl⟩ := h
    simp [printGens] at hn
    simp [printGens, pGens, gens_ok gs g' h1 rest n (by omega)]
  | .type t gs, g, h, rest, n + 1, hn => by
    simp [backGens, Option.bind_eq_some_iff] at h
    obtain ⟨t', h1, g', h2, rfl⟩ := h
    simp [printGens] at hn
    have h3 := type_ok t t' h1 (.comma :: (printGens gs ++ .gt :: rest)) trivial n (by omega)
    have h4 := gens_ok gs g' h2 rest n (by omega)
    obtain ⟨k, r, hk, hb⟩ := print_head t
    simp only [printGens, List.append_assoc, List.cons_append]
    rw [hk] at h3 ⊢
    cases k <;> simp [begins] at hb <;> simp only [List.cons_append] at h3 ⊢ <;> simp [pGens, h3, h4]

end

/-! ### What the macro understands -/

mutual

/-- The type without what has no meaning: invisible delimiters are dropped, and functions that return nothing return `()`.  With `k = false`, also
without the `::` in front of the trait of a qualified path. -/
def norm (k : Bool) : Syn → Syn
  | .path .none colon s => .path .none colon (normSegs k s)
  | .path (.some t p) colon s => .path (.some (norm k t) p) (colon && k) (normSegs k s)
  | .path (.pre p) colon s => .path (.pre p) colon (normSegs k s)
  | .bareFn l u a i o => .bareFn l u a (normSyns k i) (.some (normOSyn k o))
  | .group t => norm k t
  | .paren t => .paren (norm k t)
  | .array t n => .array (norm k t) n
  | .ptr m t => .ptr m (norm k t)
  | .reference l m t => .reference l m (norm k t)
  | .tuple ts => .tuple (normSyns k ts)
  | .never => .never
  | .other n => .other n

def normSegs (k : Bool) : Segs → Segs
  | .nil => .nil
  | .self r => .self (normSegs k r)
  | .seg i a r => .seg i (normArgs k a) (normSegs k r)

def normArgs (k : Bool) : SArgs → SArgs
  | .none => .none
  | .angle gs => .angle (normGens k gs)
  | .paren i o => .paren (normSyns k i) (.some (normOSyn k o))

def normGens (k : Bool) : SGens → SGens
  | .nil => .nil
  | .lifetime l gs => .lifetime l (normGens k gs)
  | .type t gs => .type (norm k t) (normGens k gs)
  | .other n gs => .other n (normGens k gs)

def normSyns (k : Bool) : Syns → Syns
  | .nil => .nil
  | .cons t ts => .cons (norm k t) (normSyns k ts)

def normOSyn (k : Bool) : OSyn → Syn
  | .none => .tuple .nil
  | .some t => norm k t

end

/-- What the segments stand for. -/
def backSegs : List Seg → Option Segs
  | [] => some .nil
  | .self :: r => (backSegs r).map .self
  | .seg i a :: r => (backArgs a).bind fun a => (backSegs r).map (.seg i a)

theorem build_segs : ∀ (l : List Seg) {ty : Ty}, build l = some ty → l ≠ [] ∧ segs ty = backSegs l ∧ back ty = (backSegs l).map (.path .none false)
  | [], ty, h => by simp [build] at h
  | .self :: r, ty, h => by
    simp [build] at h
    obtain ⟨u, h1, rfl⟩ := h
    obtain ⟨-, h2, -⟩ := build_segs r h1
    simp [segs, back, backSegs, h2]
    cases backSegs r <;> rfl
  | [.seg i a], ty, h => by
    simp [build] at h
    subst h
    simp [segs, back, backSegs, segsO]
    cases backArgs a <;> rfl
  | .seg i a :: s :: r, ty, h => by
    simp [build] at h
    obtain ⟨u, h1, rfl⟩ := h
    obtain ⟨-, h2, -⟩ := build_segs (s :: r) h1
    rw [backSegs]
    simp only [segs, back, segsO, h2]
    cases backArgs a <;> cases backSegs (s :: r) <;> simp

theorem backSegs_split : ∀ (l : List Seg) (p : Nat) {s : Segs}, backSegs l = some s →
    ∃ s1 s2, backSegs (l.take p) = some s1 ∧ backSegs (l.drop p) = some s2 ∧ Segs.append s1 s2 = s ∧ Segs.length s1 = min p l.length
  | l, 0, s, h => ⟨.nil, s, by simp [backSegs], by simpa using h, rfl, by simp [Segs.length]⟩
  | [], p + 1, s, h => by
    simp [backSegs] at h
    exact ⟨.nil, .nil, by simp [backSegs], by simp [backSegs], by simp [Segs.append, h], by simp [Segs.length]⟩
  | .self :: r, p + 1, s, h => by
    simp [backSegs] at h
    obtain ⟨s, h1, rfl⟩ := h
    obtain ⟨s1, s2, e1, e2, e3, e4⟩ := backSegs_split r p h1
    exact ⟨.self s1, s2, by simp [backSegs, e1], by simpa using e2, by simp [Segs.append, e3], by simp [Segs.length, e4]⟩
  | .seg i a :: r, p + 1, s, h => by
    simp [backSegs, Option.bind_eq_some_iff] at h
    obtain ⟨a', h0, s, h1, rfl⟩ := h
    obtain ⟨s1, s2, e1, e2, e3, e4⟩ := backSegs_split r p h1
    exact ⟨.seg i a' s1, s2, by simp [backSegs, e1, h0], by simpa using e2, by simp [Segs.append, e3], by simp [Segs.length, e4]⟩

mutual

theorem back_from : ∀ (t : Syn) {ty : Ty}, fromSyn t = some ty → back ty = some (norm false t)
  | .path .none colon s, ty, h => by
    simp [fromSyn, Option.bind_eq_some_iff] at h
    obtain ⟨l, h1, u, h2, rfl⟩ := h
    obtain ⟨-, h3, h4⟩ := build_segs l h2
    have h5 := backSegs_from s h1
    cases colon <;> simp [back, norm, h3, h4, h5]
  | .path (.some t p) colon s, ty, h => by
    simp [fromSyn, Option.bind_eq_some_iff] at h
    obtain ⟨t', h0, l, h1, a, h2, n, h3, rfl⟩ := h
    obtain ⟨-, h4, -⟩ := build_segs _ h2
    obtain ⟨hne, h5, -⟩ := build_segs _ h3
    have h6 := backSegs_from s h1
    obtain ⟨s1, s2, e1, e2, e3, e4⟩ := backSegs_split l p h6
    have hp : p < l.length := by simpa using hne
    rw [Nat.min_eq_left (by omega)] at e4
    simp [back, norm, back_from t h0, h4, h5, e1, e2, e3, e4]
  | .path (.pre _) _ _, ty, h => by simp [fromSyn] at h
  | .bareFn l u a i o, ty, h => by
    simp [fromSyn, Option.bind_eq_some_iff] at h
    obtain ⟨i', h1, o', h2, rfl⟩ := h
    simp [back, norm, backTys_from i h1, backO_from o h2]
  | .group t, ty, h => by
    simp only [fromSyn] at h
    simp [norm, back_from t h]
  | .paren _, ty, h => by simp [fromSyn] at h
  | .array t n, ty, h => by
    simp [fromSyn] at h
    obtain ⟨t', h1, rfl⟩ := h
    simp [back, norm, back_from t h1]
  | .ptr m t, ty, h => by
    simp [fromSyn] at h
    obtain ⟨t', h1, rfl⟩ := h
    simp [back, norm, back_from t h1]
  | .reference l m t, ty, h => by
    simp [fromSyn] at h
    obtain ⟨t', h1, rfl⟩ := h
    simp [back, norm, back_from t h1]
  | .tuple .nil, ty, h => by
    simp [fromSyn] at h
    subst h
    simp [back, norm, normSyns]
  | .tuple (.cons _ _), ty, h => by simp [fromSyn] at h
  | .never, ty, h => by
    simp [fromSyn] at h
    subst h
    simp [back, norm]
  | .other _, ty, h => by simp [fromSyn] at h

theorem backSegs_from : ∀ (s : Segs) {l : List Seg}, fromSegs s = some l → backSegs l = some (normSegs false s)
  | .nil, l, h => by
    simp [fromSegs] at h
    subst h
    simp [backSegs, normSegs]
  | .self r, l, h => by
    simp [fromSegs] at h
    obtain ⟨l, h1, rfl⟩ := h
    simp [backSegs, normSegs, backSegs_from r h1]
  | .seg i a r, l, h => by
    simp [fromSegs, Option.bind_eq_some_iff] at h
    obtain ⟨a', h1, l, h2, rfl⟩ := h
    simp [backSegs, normSegs, backArgs_from a h1, backSegs_from r h2]

theorem backArgs_from : ∀ (a : SArgs) {b : Args}, fromArgs a = some b → backArgs b = some (normArgs false a)
  | .none, b, h => by
    simp [fromArgs] at h
    subst h
    simp [backArgs, normArgs]
  | .angle gs, b, h => by
    simp [fromArgs] at h
    obtain ⟨g, h1, rfl⟩ := h
    simp [backArgs, normArgs, backGens_from gs h1]
  | .paren _ _, b, h => by simp [fromArgs] at h

theorem backGens_from : ∀ (g : SGens) {b : Gens}, fromGens g = some b → backGens b = some (normGens false g)
  | .nil, b, h => by
    simp [fromGens] at h
    subst h
    simp [backGens, normGens]
  | .lifetime l gs, b, h => by
    simp [fromGens] at h
    obtain ⟨g, h1, rfl⟩ := h
    simp [backGens, normGens, backGens_from gs h1]
  | .type t gs, b, h => by
    simp [fromGens, Option.bind_eq_some_iff] at h
    obtain ⟨t', h1, g, h2, rfl⟩ := h
    simp [backGens, normGens, back_from t h1, backGens_from gs h2]
  | .other l gs, b, h => by
    simp [fromGens] at h
    obtain ⟨g, h1, rfl⟩ := h
    simp [backGens, normGens, backGens_from gs h1]

theorem backTys_from : ∀ (ts : Syns) {b : Tys}, fromSyns ts = some b → backTys b = some (normSyns false ts)
  | .nil, b, h => by
    simp [fromSyns] at h
    subst h
    simp [backTys, normSyns]
  | .cons t ts, b, h => by
    simp [fromSyns, Option.bind_eq_some_iff] at h
    obtain ⟨t', h1, g, h2, rfl⟩ := h
    simp [backTys, normSyns, back_from t h1, backTys_from ts h2]

theorem backO_from : ∀ (o : OSyn) {b : Ty}, fromOSyn o = some b → back b = some (normOSyn false o)
  | .none, b, h => by
    simp [fromOSyn] at h
    subst h
    simp [back, normOSyn]
  | .some t, b, h => by
    simp only [fromOSyn] at h
    simp [normOSyn, back_from t h]

end

mutual

theorem from_norm : ∀ t : Syn, fromSyn (norm false t) = fromSyn t
  | .path .none colon s => by simp [norm, fromSyn, fromSegs_norm s]
  | .path (.some t p) colon s => by simp [norm, fromSyn, fromSegs_norm s, from_norm t]
  | .path (.pre _) _ _ => by simp [norm, fromSyn]
  | .bareFn l u a i o => by simp [norm, fromSyn, fromSyns_norm i, fromOSyn, fromO_norm o]
  | .group t => by simp [norm, fromSyn, from_norm t]
  | .paren _ => by simp [norm, fromSyn]
  | .array t n => by simp [norm, fromSyn, from_norm t]
  | .ptr m t => by simp [norm, fromSyn, from_norm t]
  | .reference l m t => by simp [norm, fromSyn, from_norm t]
  | .tuple .nil => by simp [norm, normSyns]
  | .tuple (.cons _ _) => by simp [norm, normSyns, fromSyn]
  | .never => by simp [norm]
  | .other _ => by simp [norm]

theorem fromSegs_norm : ∀ s : Segs, fromSegs (normSegs false s) = fromSegs s
  | .nil => by simp [normSegs]
  | .self r => by simp [normSegs, fromSegs, fromSegs_norm r]
  | .seg i a r => by simp [normSegs, fromSegs, fromSegs_norm r, fromArgs_norm a]

theorem fromArgs_norm : ∀ a : SArgs, fromArgs (normArgs false a) = fromArgs a
  | .none => by simp [normArgs]
  | .angle gs => by simp [normArgs, fromArgs, fromGens_norm gs]
  | .paren _ _ => by simp [normArgs, fromArgs]

theorem fromGens_norm : ∀ g : SGens, fromGens (normGens false g) = fromGens g
  | .nil => by simp [normGens]
  | .lifetime l gs => by simp [normGens, fromGens, fromGens_norm gs]
  | .type t gs => by simp [normGens, fromGens, fromGens_norm gs, from_norm t]
  | .other l gs => by simp [normGens, fromGens, fromGens_norm gs]

theorem fromSyns_norm : ∀ ts : Syns, fromSyns (normSyns false ts) = fromSyns ts
  | .nil => by simp [normSyns]
  | .cons t ts => by simp [normSyns, fromSyns, from_norm t, fromSyns_norm ts]

theorem fromO_norm : ∀ o : OSyn, fromSyn (normOSyn false o) = fromOSyn o
  | .none => by simp [normOSyn, fromSyn, fromOSyn]
  | .some t => by simp [normOSyn, fromOSyn, from_norm t]

end

/-- Rust reads the tokens of a `Ty` as the type that it stands for. -/
theorem reads_print (ty : Ty) {t : Syn} (h : back ty = some t) : reads (print ty) = some t := by
  have := type_ok ty t h [] trivial (4 * (print ty).length + 4) (by omega)
  rw [List.append_nil] at this
  simp [reads, this]

/-! ### The property -/

mutual

/-- The type contains no `<T as ::Trait>::X`, where the path of the trait begins with `::`. -/
def Unrooted : Syn → Prop
  | .path .none _ s => UnrootedSegs s
  | .path (.some t _) colon s => colon = false ∧ Unrooted t ∧ UnrootedSegs s
  | .path (.pre _) _ s => UnrootedSegs s
  | .bareFn _ _ _ i o => UnrootedSyns i ∧ UnrootedOSyn o
  | .group t => Unrooted t
  | .paren t => Unrooted t
  | .array t _ => Unrooted t
  | .ptr _ t => Unrooted t
  | .reference _ _ t => Unrooted t
  | .tuple ts => UnrootedSyns ts
  | .never => True
  | .other _ => True

def UnrootedSegs : Segs → Prop
  | .nil => True
  | .self r => UnrootedSegs r
  | .seg _ a r => UnrootedArgs a ∧ UnrootedSegs r

def UnrootedArgs : SArgs → Prop
  | .none => True
  | .angle gs => UnrootedGens gs
  | .paren i o => UnrootedSyns i ∧ UnrootedOSyn o

def UnrootedGens : SGens → Prop
  | .nil => True
  | .lifetime _ gs => UnrootedGens gs
  | .type t gs => Unrooted t ∧ UnrootedGens gs
  | .other _ gs => UnrootedGens gs

def UnrootedSyns : Syns → Prop
  | .nil => True
  | .cons t ts => Unrooted t ∧ UnrootedSyns ts

def UnrootedOSyn : OSyn → Prop
  | .none => True
  | .some t => Unrooted t

end

mutual

theorem norm_unrooted : ∀ t : Syn, Unrooted t → norm false t = norm true t
  | .path .none _ s, h => by simp [norm, normSegs_unrooted s (by simpa [Unrooted] using h)]
  | .path (.some t _) _ s, h => by
    simp [Unrooted] at h
    simp [norm, h.1, norm_unrooted t h.2.1, normSegs_unrooted s h.2.2]
  | .path (.pre _) _ s, h => by simp [norm, normSegs_unrooted s (by simpa [Unrooted] using h)]
  | .bareFn _ _ _ i o, h => by
    simp [Unrooted] at h
    simp [norm, normSyns_unrooted i h.1, normO_unrooted o h.2]
  | .group t, h => by simp [norm, norm_unrooted t (by simpa [Unrooted] using h)]
  | .paren t, h => by simp [norm, norm_unrooted t (by simpa [Unrooted] using h)]
  | .array t _, h => by simp [norm, norm_unrooted t (by simpa [Unrooted] using h)]
  | .ptr _ t, h => by simp [norm, norm_unrooted t (by simpa [Unrooted] using h)]
  | .reference _ _ t, h => by simp [norm, norm_unrooted t (by simpa [Unrooted] using h)]
  | .tuple ts, h => by simp [norm, normSyns_unrooted ts (by simpa [Unrooted] using h)]
  | .never, _ => by simp [norm]
  | .other _, _ => by simp [norm]

theorem normSegs_unrooted : ∀ s : Segs, UnrootedSegs s → normSegs false s = normSegs true s
  | .nil, _ => by simp [normSegs]
  | .self r, h => by simp [normSegs, normSegs_unrooted r (by simpa [UnrootedSegs] using h)]
  | .seg _ a r, h => by
    simp [UnrootedSegs] at h
    simp [normSegs, normArgs_unrooted a h.1, normSegs_unrooted r h.2]

theorem normArgs_unrooted : ∀ a : SArgs, UnrootedArgs a → normArgs false a = normArgs true a
  | .none, _ => by simp [normArgs]
  | .angle gs, h => by simp [normArgs, normGens_unrooted gs (by simpa [UnrootedArgs] using h)]
  | .paren i o, h => by
    simp [UnrootedArgs] at h
    simp [normArgs, normSyns_unrooted i h.1, normO_unrooted o h.2]

theorem normGens_unrooted : ∀ g : SGens, UnrootedGens g → normGens false g = normGens true g
  | .nil, _ => by simp [normGens]
  | .lifetime _ gs, h => by simp [normGens, normGens_unrooted gs (by simpa [UnrootedGens] using h)]
  | .type t gs, h => by
    simp [UnrootedGens] at h
    simp [normGens, norm_unrooted t h.1, normGens_unrooted gs h.2]
  | .other _ gs, h => by simp [normGens, normGens_unrooted gs (by simpa [UnrootedGens] using h)]

theorem normSyns_unrooted : ∀ ts : Syns, UnrootedSyns ts → normSyns false ts = normSyns true ts
  | .nil, _ => by simp [normSyns]
  | .cons t ts, h => by
    simp [UnrootedSyns] at h
    simp [normSyns, norm_unrooted t h.1, normSyns_unrooted ts h.2]

theorem normO_unrooted : ∀ o : OSyn, UnrootedOSyn o → normOSyn false o = normOSyn true o
  | .none, _ => by simp [normOSyn]
  | .some t, h => by simp [normOSyn, norm_unrooted t (by simpa [UnrootedOSyn] using h)]

end

/-- Every type that the macro accepts is written back by it such that Rust reads the same type again.  What is missing from C83: types that contain
`<T as ::Trait>::X`, see `C83_rooted_refuted`, and types that the macro does not accept, see `C83_accepts` and what follows it. -/
theorem C83_read_partial (t : Syn) (ty : Ty) (h : fromSyn t = some ty) (hu : Unrooted t) : reads (print ty) = some (norm true t) := by
  rw [reads_print ty (back_from t h), norm_unrooted t hu]

/-- Types have the same tokens exactly if they are the same, which is how the macro finds types that depend on `Self` again. -/
theorem C83_tokens (a b : Syn) (t u : Ty) (ha : fromSyn a = some t) (hb : fromSyn b = some u) : print t = print u ↔ t = u := by
  refine ⟨fun h => ?_, fun h => h ▸ rfl⟩
  have h1 := reads_print t (back_from a ha)
  rw [h, reads_print u (back_from b hb)] at h1
  have h2 : fromSyn (norm false b) = fromSyn (norm false a) := by simp at h1; rw [h1]
  rw [from_norm, from_norm, ha, hb] at h2
  simpa using h2.symm

/-- `&'a mut [*const Self::T<u8>; N]` and `for<'b> unsafe extern fn(<A as x::Tr<'a>>::B) -> ::c::D`. -/
def ex1 : Syn :=
  .reference (some (.named 0)) true (.array (.ptr false (.path .none false (.self (.seg (.user 0) (.angle (.type (.path .none false (.seg (.user 1) .none .nil)) .nil)) .nil)))) 5)
def ex2 : Syn :=
  .bareFn (some 0) true (some 1) (.cons (.path (.some (.path .none false (.seg (.user 2) .none .nil)) 2) false
    (.seg (.user 3) .none (.seg (.user 4) (.angle (.lifetime (.named 0) .nil)) (.seg (.user 5) .none .nil)))) .nil)
    (.some (.path .none true (.seg (.user 6) .none (.seg (.user 7) .none .nil))))

example : (fromSyn ex1).isSome = true ∧ (fromSyn ex2).isSome = true ∧ Unrooted ex1 ∧ Unrooted ex2 ∧
    (fromSyn ex1).bind (fun t => reads (print t)) = some ex1 ∧ (fromSyn ex2).bind (fun t => reads (print t)) = some ex2 := by
  refine ⟨by decide +kernel, by decide +kernel, ?_, ?_, by decide +kernel, by decide +kernel⟩ <;>
    simp [ex1, ex2, Unrooted, UnrootedSegs, UnrootedArgs, UnrootedGens, UnrootedSyns, UnrootedOSyn]

/-- `<T as ::a::Trait>::X` is never written back as it was: it becomes `<T as a::Trait>::X`, whose `a` may be another module. -/
theorem C83_rooted_refuted (t : Syn) (p : Nat) (s : Segs) (ty : Ty) (h : fromSyn (.path (.some t p) true s) = some ty) :
    reads (print ty) ≠ some (norm true (.path (.some t p) true s)) ∧
    reads (print ty) = some (norm false (.path (.some t p) true s)) := by
  rw [reads_print ty (back_from _ h)]
  simp [norm]

example : ∃ ty, fromSyn (.path (.some (.path .none false (.seg (.user 0) .none .nil)) 2) true
    (.seg (.user 1) .none (.seg (.user 2) .none (.seg (.user 3) .none .nil)))) = some ty ∧
    print ty = [.lt, .id (.user 0), .as, .id (.user 1), .colon2, .id (.user 2), .gt, .colon2, .id (.user 3)] := ⟨_, rfl, rfl⟩

/-! ### What the macro does not accept -/

/-- The last of the segments, and whether there is one, isn't `Self`. -/
def Segs.endsWell : Segs → Bool
  | .nil => false
  | .self .nil => false
  | .self r => Segs.endsWell r
  | .seg _ _ .nil => true
  | .seg _ _ r => Segs.endsWell r

/-- The first `n` segments. -/
def Segs.first : Nat → Segs → Segs
  | 0, _ => .nil
  | _ + 1, .nil => .nil
  | n + 1, .self r => .self (Segs.first n r)
  | n + 1, .seg i a r => .seg i a (Segs.first n r)

/-- All but the first `n` segments. -/
def Segs.after : Nat → Segs → Segs
  | 0, s => s
  | _ + 1, .nil => .nil
  | n + 1, .self r => Segs.after n r
  | n + 1, .seg _ _ r => Segs.after n r

mutual

/-- The types that the macro accepts: no path, and no part of a path before or after the bracket of `<T as ..>`, is empty or ends in `Self`; no
parentheses, no `Fn(A) -> B`; of tuples only `()`. -/
def Accepted : Syn → Prop
  | .path .none _ s => Segs.endsWell s = true ∧ AcceptedSegs s
  | .path (.some t p) _ s => Accepted t ∧ Segs.endsWell (Segs.first p s) = true ∧ Segs.endsWell (Segs.after p s) = true ∧ AcceptedSegs s
  | .path (.pre _) _ _ => False
  | .bareFn _ _ _ i o => AcceptedSyns i ∧ AcceptedOSyn o
  | .group t => Accepted t
  | .paren _ => False
  | .array t _ => Accepted t
  | .ptr _ t => Accepted t
  | .reference _ _ t => Accepted t
  | .tuple ts => ts = .nil
  | .never => True
  | .other _ => False

def AcceptedSegs : Segs → Prop
  | .nil => True
  | .self r => AcceptedSegs r
  | .seg _ a r => AcceptedArgs a ∧ AcceptedSegs r

def AcceptedArgs : SArgs → Prop
  | .none => True
  | .angle gs => AcceptedGens gs
  | .paren _ _ => False

def AcceptedGens : SGens → Prop
  | .nil => True
  | .lifetime _ gs => AcceptedGens gs
  | .type t gs => Accepted t ∧ AcceptedGens gs
  | .other _ gs => AcceptedGens gs

def AcceptedSyns : Syns → Prop
  | .nil => True
  | .cons t ts => Accepted t ∧ AcceptedSyns ts

def AcceptedOSyn : OSyn → Prop
  | .none => True
  | .some t => Accepted t

end

/-- Lists of segments that `build` accepts. -/
def wellEnded : List Seg → Bool
  | [] => false
  | [.self] => false
  | [.seg _ _] => true
  | _ :: r => wellEnded r

theorem build_some : ∀ l : List Seg, (build l).isSome = wellEnded l
  | [] => rfl
  | [.self] => rfl
  | [.seg _ _] => rfl
  | .self :: s :: r => by simp [build, wellEnded, build_some (s :: r)]
  | .seg _ _ :: s :: r => by simp [build, wellEnded, build_some (s :: r)]

theorem wellEnded_eq : ∀ (s : Segs) {l : List Seg}, fromSegs s = some l → wellEnded l = Segs.endsWell s
  | .nil, l, h => by simp [fromSegs] at h; subst h; rfl
  | .self .nil, l, h => by simp [fromSegs] at h; subst h; rfl
  | .seg i a .nil, l, h => by
    simp [fromSegs, Option.bind_eq_some_iff] at h
    obtain ⟨a', h1, rfl⟩ := h
    rfl
  | .self (.self r), l, h => by
    rw [fromSegs, Option.map_eq_some_iff] at h
    obtain ⟨l', h1, rfl⟩ := h
    have := wellEnded_eq (.self r) h1
    cases l' <;> simp_all [wellEnded, Segs.endsWell, fromSegs]
  | .self (.seg i a r), l, h => by
    rw [fromSegs, Option.map_eq_some_iff] at h
    obtain ⟨l', h1, rfl⟩ := h
    have := wellEnded_eq (.seg i a r) h1
    cases l' <;> simp_all [wellEnded, Segs.endsWell, fromSegs]
  | .seg j b (.self r), l, h => by
    rw [fromSegs, Option.bind_eq_some_iff] at h
    obtain ⟨b', h0, h⟩ := h
    rw [Option.map_eq_some_iff] at h
    obtain ⟨l', h1, rfl⟩ := h
    have := wellEnded_eq (.self r) h1
    cases l' <;> simp_all [wellEnded, Segs.endsWell, fromSegs]
  | .seg j b (.seg i a r), l, h => by
    rw [fromSegs, Option.bind_eq_some_iff] at h
    obtain ⟨b', h0, h⟩ := h
    rw [Option.map_eq_some_iff] at h
    obtain ⟨l', h1, rfl⟩ := h
    have := wellEnded_eq (.seg i a r) h1
    cases l' <;> simp_all [wellEnded, Segs.endsWell, fromSegs, Option.bind_eq_some_iff]

theorem fromSegs_split : ∀ (n : Nat) (s : Segs) {l : List Seg}, fromSegs s = some l →
    fromSegs (Segs.first n s) = some (l.take n) ∧ fromSegs (Segs.after n s) = some (l.drop n)
  | 0, s, l, h => by simp [Segs.first, Segs.after, fromSegs, h]
  | n + 1, .nil, l, h => by simp [fromSegs] at h; subst h; simp [Segs.first, Segs.after, fromSegs]
  | n + 1, .self r, l, h => by
    simp [fromSegs] at h
    obtain ⟨l, h1, rfl⟩ := h
    simp [Segs.first, Segs.after, fromSegs, fromSegs_split n r h1]
  | n + 1, .seg i a r, l, h => by
    simp [fromSegs, Option.bind_eq_some_iff] at h
    obtain ⟨a', h0, l, h1, rfl⟩ := h
    simp [Segs.first, Segs.after, fromSegs, fromSegs_split n r h1, h0]

theorem bind_isSome {A B : Type} (o : Option A) (f : A → Option B) : (o.bind f).isSome = true ↔ ∃ a, o = some a ∧ (f a).isSome = true := by
  cases o <;> simp

mutual

theorem accepts : ∀ t : Syn, (fromSyn t).isSome = true ↔ Accepted t
  | .path .none _ s => by
    have h1 := acceptsSegs s
    simp only [fromSyn, bind_isSome, Option.isSome_map, build_some, Accepted]
    constructor
    · rintro ⟨l, h2, h3⟩
      exact ⟨wellEnded_eq s h2 ▸ h3, h1.1 (by simp [h2])⟩
    · rintro ⟨h2, h3⟩
      obtain ⟨l, hl⟩ := Option.isSome_iff_exists.1 (h1.2 h3)
      exact ⟨l, hl, by rw [wellEnded_eq s hl, h2]⟩
  | .path (.some t p) _ s => by
    have h0 := accepts t
    have h1 := acceptsSegs s
    simp only [fromSyn, bind_isSome, Option.isSome_map, build_some, Accepted]
    constructor
    · rintro ⟨t', e0, l, e1, a, e2, e3⟩
      obtain ⟨f1, f2⟩ := fromSegs_split p s e1
      refine ⟨h0.1 (by simp [e0]), ?_, ?_, h1.1 (by simp [e1])⟩
      · rw [← wellEnded_eq _ f1, ← build_some, e2]; rfl
      · rw [← wellEnded_eq _ f2]; exact e3
    · rintro ⟨e0, e1, e2, e3⟩
      obtain ⟨t', ht⟩ := Option.isSome_iff_exists.1 (h0.2 e0)
      obtain ⟨l, hl⟩ := Option.isSome_iff_exists.1 (h1.2 e3)
      obtain ⟨f1, f2⟩ := fromSegs_split p s hl
      rw [← wellEnded_eq _ f1, ← build_some] at e1
      rw [← wellEnded_eq _ f2] at e2
      obtain ⟨a, ha⟩ := Option.isSome_iff_exists.1 e1
      exact ⟨t', ht, l, hl, a, ha, e2⟩
  | .path (.pre _) _ _ => by simp [fromSyn, Accepted]
  | .bareFn _ _ _ i o => by
    have h1 := acceptsSyns i
    have h2 := acceptsO o
    simp only [fromSyn, bind_isSome, Option.isSome_map, Accepted, ← h1, ← h2, Option.isSome_iff_exists (x := fromSyns i)]
    simp
  | .group t => by simp [fromSyn, Accepted, accepts t]
  | .paren _ => by simp [fromSyn, Accepted]
  | .array t _ => by simp [fromSyn, Accepted, accepts t]
  | .ptr _ t => by simp [fromSyn, Accepted, accepts t]
  | .reference _ _ t => by simp [fromSyn, Accepted, accepts t]
  | .tuple .nil => by simp [fromSyn, Accepted]
  | .tuple (.cons _ _) => by simp [fromSyn, Accepted]
  | .never => by simp [fromSyn, Accepted]
  | .other _ => by simp [fromSyn, Accepted]

theorem acceptsSegs : ∀ s : Segs, (fromSegs s).isSome = true ↔ AcceptedSegs s
  | .nil => by simp [fromSegs, AcceptedSegs]
  | .self r => by simp [fromSegs, AcceptedSegs, acceptsSegs r]
  | .seg _ a r => by
    have h1 := acceptsArgs a
    have h2 := acceptsSegs r
    simp only [fromSegs, bind_isSome, Option.isSome_map, AcceptedSegs, ← h1, ← h2, Option.isSome_iff_exists (x := fromArgs a)]
    simp

theorem acceptsArgs : ∀ a : SArgs, (fromArgs a).isSome = true ↔ AcceptedArgs a
  | .none => by simp [fromArgs, AcceptedArgs]
  | .angle gs => by simp [fromArgs, AcceptedArgs, acceptsGens gs]
  | .paren _ _ => by simp [fromArgs, AcceptedArgs]

theorem acceptsGens : ∀ g : SGens, (fromGens g).isSome = true ↔ AcceptedGens g
  | .nil => by simp [fromGens, AcceptedGens]
  | .lifetime _ gs => by simp [fromGens, AcceptedGens, acceptsGens gs]
  | .type t gs => by
    have h1 := accepts t
    have h2 := acceptsGens gs
    simp only [fromGens, bind_isSome, Option.isSome_map, AcceptedGens, ← h1, ← h2, Option.isSome_iff_exists (x := fromSyn t)]
    simp
  | .other _ gs => by simp [fromGens, AcceptedGens, acceptsGens gs]

theorem acceptsSyns : ∀ ts : Syns, (fromSyns ts).isSome = true ↔ AcceptedSyns ts
  | .nil => by simp [fromSyns, AcceptedSyns]
  | .cons t ts => by
    have h1 := accepts t
    have h2 := acceptsSyns ts
    simp only [fromSyns, bind_isSome, Option.isSome_map, AcceptedSyns, ← h1, ← h2, Option.isSome_iff_exists (x := fromSyn t)]
    simp

theorem acceptsO : ∀ o : OSyn, (fromOSyn o).isSome = true ↔ AcceptedOSyn o
  | .none => by simp [fromOSyn, AcceptedOSyn]
  | .some t => by simp [fromOSyn, AcceptedOSyn, accepts t]

end

/-- Which types the macro accepts. -/
theorem C83_accepts (t : Syn) : (∃ ty, fromSyn t = some ty) ↔ Accepted t := by
  rw [← accepts, Option.isSome_iff_exists]

example : Accepted ex1 ∧ Accepted ex2 := by
  rw [← C83_accepts, ← C83_accepts]
  exact ⟨⟨_, rfl⟩, ⟨_, rfl⟩⟩

/-- Rust's ways to write types that mean the same as accepted ones, and that make the macro panic: `<Self as Trait>::X` (the same as `Self::X` in the
trait itself), `<T>::X` (the same as `T::X`) and `(T)`. -/
theorem C83_refused_refuted (t : Syn) (p : Nat) (colon : Bool) (s : Segs) :
    fromSyn (.path (.some (.path .none false (.self .nil)) p) colon s) = none ∧
    fromSyn (.path (.some t 0) colon s) = none ∧
    fromSyn (.paren t) = none ∧ fromSyn (.path .none colon (.self .nil)) = none := by
  refine ⟨by simp [fromSyn, fromSegs, build], ?_, by simp [fromSyn], by simp [fromSyn, fromSegs, build]⟩
  simp only [fromSyn, List.take_zero, build]
  cases fromSyn t <;> cases fromSegs s <;> rfl

end Verif.Props.Written
