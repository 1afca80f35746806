import Verif.Macros.Generics
import Mathlib.Data.List.Nodup
import Mathlib.Data.List.Perm.Basic

/-! # C90: the parameters and `where` clauses of types are kept -/
namespace Verif.Props.Generics
open Verif.Macros.Generics
open Verif.Macros.Bounds (GParam)

/-! ### Rust's rules, for what is between the brackets -/

/-- The parts of a list that is separated by commas; one may come last. -/
def parts : List Tok → List Tok → List (List Tok)
  | [], [] => []
  | c :: cur, [] => [c :: cur]
  | cur, .comma :: ts => cur :: parts [] ts
  | cur, t :: ts => parts (cur ++ [t]) ts

/-- Reads each part. -/
def readAll {α : Type} (f : List Tok → Option α) : List (List Tok) → Option (List α)
  | [] => some []
  | s :: ss => (f s).bind fun a => (readAll f ss).map (a :: ·)

/-- The bounds that come first, and what is after them. -/
def readBounds : List Tok → List Nat × List Tok
  | .bound b :: ts => (b :: (readBounds ts).1, (readBounds ts).2)
  | ts => ([], ts)

def readColon : List Tok → List Nat × List Tok
  | .colon :: ts => readBounds ts
  | ts => ([], ts)

def readDefault : List Tok → Option (Option Nat)
  | [] => some none
  | [.eq, .val v] => some (some v)
  | _ => none

/-- A parameter. -/
def readParam : List Tok → Option GParam
  | .lt n :: ts => if (readColon ts).2 = [] then some (.lifetime n (readColon ts).1) else none
  | .id n :: ts => (readDefault (readColon ts).2).map (.type n (readColon ts).1)
  | .const :: .id n :: .colon :: .ty t :: ts => (readDefault ts).map (.const n t)
  | _ => none

/-- The name of a lifetime, or of a type or constant. -/
inductive Arg where
  | lt (n : Nat)
  | id (n : Nat)
  deriving DecidableEq, Repr

def readArg : List Tok → Option Arg
  | [.lt n] => some (.lt n)
  | [.id n] => some (.id n)
  | _ => none

def readPred : List Tok → Option Pred
  | [.pred p] => some p
  | _ => none

def name : GParam → Arg
  | .lifetime n _ => .lt n
  | .type n _ _ => .id n
  | .const n _ _ => .id n

/-- What is given for a parameter: a lifetime, a type, or a constant of a type. -/
inductive Sort' where
  | lt
  | ty
  | const (t : Nat)
  deriving DecidableEq

def sort : GParam → Sort'
  | .lifetime _ _ => .lt
  | .type _ _ _ => .ty
  | .const _ t _ => .const t

def boundsOf : GParam → List Nat
  | .lifetime _ bs => bs
  | .type _ bs _ => bs
  | .const _ _ _ => []

def default : GParam → Option Nat
  | .lifetime _ _ => none
  | .type _ _ d => d
  | .const _ _ d => d

def strip : GParam → GParam
  | .lifetime n bs => .lifetime n bs
  | .type n bs _ => .type n bs none
  | .const n t _ => .const n t none

/-- Lifetimes come before all others. -/
def LifetimesFirst (ps : List GParam) : Prop := ps.Pairwise fun a b => sort b = .lt → sort a = .lt

/-- After a parameter with a default, all have one. -/
def DefaultsLast (ps : List GParam) : Prop := ps.Pairwise fun a b => default a ≠ none → default b ≠ none

/-- Types come before constants. -/
def TypesFirst (ps : List GParam) : Prop := ps.Pairwise fun a b => sort b = .ty → a.isConst = false

instance (ps : List GParam) : Decidable (LifetimesFirst ps) := by unfold LifetimesFirst; infer_instance
instance (ps : List GParam) : Decidable (DefaultsLast ps) := by unfold DefaultsLast; infer_instance
instance (ps : List GParam) : Decidable (TypesFirst ps) := by unfold TypesFirst; infer_instance

/-- A type: what its parameters are, and its predicates. -/
structure Decl where
  params : List GParam
  preds : List Pred
  deriving DecidableEq

/-- The `where` clause comes after a body in parentheses, and before one in braces. -/
def readWhere (it : ItemDef) : Option (List Pred) :=
  match it.body, it.before, it.after with
  | _, none, none => some []
  | .braces, some ts, none => readAll readPred (parts [] ts)
  | .nothing, some ts, none => readAll readPred (parts [] ts)
  | .parens, none, some ts => readAll readPred (parts [] ts)
  | _, _, _ => none

def readItem (it : ItemDef) : Option Decl :=
  (readAll readParam (parts [] it.params)).bind fun ps => (readWhere it).bind fun cs =>
    if LifetimesFirst ps ∧ DefaultsLast ps then some ⟨ps, cs⟩ else none

/-- An `impl` that has been read. -/
structure Impl where
  params : List GParam
  args : List Arg
  preds : List Pred
  auxArgs : Option (List Arg)
  deriving DecidableEq

/-- `impl`s don't have defaults. -/
def readImpl (h : ImplHead) : Option Impl :=
  (readAll readParam (parts [] h.params)).bind fun ps => (readAll readArg (parts [] h.args)).bind fun as =>
    (readAll readPred (parts [] h.preds)).bind fun cs =>
      if LifetimesFirst ps ∧ ∀ p ∈ ps, default p = none then
        match h.auxArgs with
        | none => some ⟨ps, as, cs, none⟩
        | some x => (readAll readArg (parts [] x)).map fun as' => ⟨ps, as, cs, some as'⟩
      else none

/-- `a`, a parameter of the `impl`, can be given for `d`. -/
def fitsOne (ps : List GParam) (d : GParam) (a : Arg) : Bool :=
  match ps.find? (fun p => name p = a) with
  | some p => sort p = sort d && (boundsOf d).all (· ∈ boundsOf p)
  | none => false

def fitsAll (ps : List GParam) : List GParam → List Arg → Bool
  | [], [] => true
  | d :: ds, a :: as => fitsOne ps d a && fitsAll ps ds as
  | _, _ => false

/-- The arguments can be given to the type in the `impl`, where its predicates hold. -/
def fits (d : Decl) (i : Impl) (as : List Arg) : Bool := fitsAll i.params d.params as && d.preds.all (· ∈ i.preds)

/-- An `impl` is well formed. -/
def implOk (d : Decl) (aux : Option Decl) (h : ImplHead) : Bool :=
  match readImpl h with
  | none => false
  | some i => fits d i i.args &&
      match i.auxArgs, aux with
      | none, _ => true
      | some as, some x => fits x i as
      | some _, none => false

/-- What the fields need holds. -/
def itemOk (needs : List Nat) (d : Decl) : Bool := needs.all (fun n => Pred.user n ∈ d.preds)

/-- The heads of the output are accepted by the compiler. -/
def compiles (needs : List Nat) (o : Output) : Bool :=
  match readItem o.item, o.aux with
  | none, _ => false
  | some d, none => itemOk needs d && o.impls.all (implOk d none)
  | some d, some x =>
    match readItem x with
    | none => false
    | some x => itemOk needs d && itemOk needs x && o.impls.all (implOk d (some x))

/-- What is asked of the user: what Rust asks of the type without the attribute. -/
structure Legal (w : Written) : Prop where
  lifetimes : LifetimesFirst w.params
  defaults : DefaultsLast w.params
  names : (w.params.map name).Nodup
  needs : ∀ n ∈ w.needs, n ∈ w.preds

/-! ### Reading what has been written -/

def Plain (s : List Tok) : Prop := s ≠ [] ∧ Tok.comma ∉ s

theorem parts_comma (cur s ts : List Tok) (h : Tok.comma ∉ s) : parts cur (s ++ .comma :: ts) = (cur ++ s) :: parts [] ts := by
  induction s generalizing cur with
  | nil => simp [parts]
  | cons t s ih =>
    rw [List.mem_cons, not_or] at h
    rw [List.cons_append, parts, ih _ h.2]
    · simp
    · rintro rfl; exact h.1 rfl

theorem parts_end (cur s : List Tok) (h : Tok.comma ∉ s) (hn : cur ++ s ≠ []) : parts cur s = [cur ++ s] := by
  induction s generalizing cur with
  | nil =>
    cases cur with
    | nil => simp at hn
    | cons c cur => simp [parts]
  | cons t s ih =>
    rw [List.mem_cons, not_or] at h
    rw [parts, ih _ h.2]
    · simp
    · simp
    · rintro rfl; exact h.1 rfl

theorem parts_punctuated (ss : List (List Tok)) (h : ∀ s ∈ ss, Plain s) : parts [] (punctuated ss) = ss := by
  induction ss with
  | nil => rfl
  | cons s ss ih =>
    have hs := h s (by simp)
    cases ss with
    | nil =>
      rw [punctuated, parts_end _ _ hs.2 (by simpa using hs.1)]; rfl
    | cons s' ss =>
      rw [punctuated, parts_comma _ _ _ hs.2, ih (fun x hx => h x (by simp [hx]))]; rfl

theorem parts_punctuated_comma (ss : List (List Tok)) (h : ∀ s ∈ ss, Plain s) (hn : ss ≠ []) (ts : List Tok) :
    parts [] (punctuated ss ++ .comma :: ts) = ss ++ parts [] ts := by
  induction ss with
  | nil => simp at hn
  | cons s ss ih =>
    have hs := h s (by simp)
    cases ss with
    | nil => rw [punctuated, parts_comma _ _ _ hs.2]; rfl
    | cons s' ss =>
      rw [punctuated, List.append_assoc, List.cons_append, parts_comma _ _ _ hs.2, ih (fun x hx => h x (by simp [hx])) (by simp)]; rfl

theorem parts_flatMap {α : Type} (f : α → List Tok) (l : List α) (h : ∀ a ∈ l, Tok.comma ∉ f a) (ts : List Tok) :
    parts [] (l.flatMap (fun a => f a ++ [.comma]) ++ ts) = l.map f ++ parts [] ts := by
  induction l with
  | nil => rfl
  | cons a l ih =>
    rw [List.flatMap_cons, List.append_assoc, List.append_assoc, List.singleton_append, parts_comma _ _ _ (h a (by simp)),
      ih (fun x hx => h x (by simp [hx]))]
    rfl

theorem readAll_map {α β : Type} (f : List Tok → Option β) (g : α → List Tok) (k : α → β) (l : List α) (h : ∀ a ∈ l, f (g a) = some (k a)) :
    readAll f (l.map g) = some (l.map k) := by
  induction l with
  | nil => rfl
  | cons a l ih =>
    rw [List.map_cons, readAll, h a (by simp), ih (fun x hx => h x (by simp [hx]))]; rfl

theorem readAll_append {β : Type} (f : List Tok → Option β) (a b : List (List Tok)) :
    readAll f (a ++ b) = (readAll f a).bind fun x => (readAll f b).map (x ++ ·) := by
  induction a with
  | nil => cases h : readAll f b <;> simp [readAll, h]
  | cons s a ih =>
    rw [List.cons_append, readAll, readAll, ih]
    cases f s with
    | none => rfl
    | some y =>
      cases readAll f a with
      | none => rfl
      | some z => cases readAll f b <;> rfl

theorem readAll_none {β : Type} (f : List Tok → Option β) (l : List (List Tok)) : readAll f l = none ↔ ∃ s ∈ l, f s = none := by
  induction l with
  | nil => simp [readAll]
  | cons s l ih =>
    rw [readAll]
    cases h : f s with
    | none => simp [h]
    | some a =>
      simp only [Option.bind_some, Option.map_eq_none_iff, ih, List.mem_cons, exists_eq_or_imp, h]
      simp

theorem readBounds_map (bs : List Nat) (ts : List Tok) (h : ∀ b ts', ts ≠ .bound b :: ts') : readBounds (bs.map .bound ++ ts) = (bs, ts) := by
  induction bs with
  | nil =>
    cases ts with
    | nil => rfl
    | cons t ts => cases t <;> first | rfl | exact absurd rfl (h _ _)
  | cons b bs ih => rw [List.map_cons, List.cons_append, readBounds, ih]

theorem readColon_boundsToks (bs : List Nat) (d : Option Nat) : readColon (boundsToks bs ++ defaultToks d) = (bs, defaultToks d) := by
  unfold boundsToks
  split
  · next h => subst h; cases d <;> rfl
  · rw [List.cons_append, readColon, readBounds_map]
    cases d <;> simp [defaultToks]

theorem readDefault_defaultToks (d : Option Nat) : readDefault (defaultToks d) = some d := by cases d <;> rfl

theorem readParam_paramToks (p : GParam) : readParam (paramToks p) = some p := by
  cases p with
  | lifetime n bs =>
    have := readColon_boundsToks bs none
    rw [defaultToks, List.append_nil] at this
    rw [paramToks, readParam, this]; rfl
  | type n bs d => rw [paramToks, readParam, readColon_boundsToks, readDefault_defaultToks]; rfl
  | const n t d =>
    show (readDefault (defaultToks d)).map (GParam.const n t) = _
    rw [readDefault_defaultToks]; rfl

theorem readParam_withoutDefault (p : GParam) : readParam (withoutDefault p) = some (strip p) := by
  have hb : ∀ bs : List Nat, readBounds (bs.map .bound) = (bs, []) := fun bs => by
    have := readBounds_map bs [] (by simp)
    rwa [List.append_nil] at this
  cases p with
  | lifetime n bs => rw [withoutDefault, readParam, readColon, hb]; rfl
  | type n bs d => rw [withoutDefault, readParam, readColon, hb]; rfl
  | const n t d => rfl

theorem readArg_unbound (p : GParam) : readArg (unbound p) = some (name p) := by cases p <;> rfl

theorem comma_boundsToks (bs : List Nat) : Tok.comma ∉ boundsToks bs := by
  unfold boundsToks; split <;> simp

theorem comma_defaultToks (d : Option Nat) : Tok.comma ∉ defaultToks d := by cases d <;> simp [defaultToks]

theorem plain_paramToks (p : GParam) : Plain (paramToks p) := by
  cases p <;> simp [Plain, paramToks, comma_boundsToks, comma_defaultToks]

theorem comma_withoutDefault (p : GParam) : Tok.comma ∉ withoutDefault p := by cases p <;> simp [withoutDefault]

theorem comma_unbound (p : GParam) : Tok.comma ∉ unbound p := by cases p <;> simp [unbound]

/-- The order of `SeparatedGenerics`. -/
def sep (ps : List GParam) : List GParam := ps.filter GParam.isLifetime ++ ps.filter GParam.isType ++ ps.filter GParam.isConst

theorem read_withoutDefault (ps : List GParam) : readAll readParam (parts [] (separated withoutDefault ps)) = some ((sep ps).map strip) := by
  have := parts_flatMap withoutDefault (sep ps) (fun a _ => comma_withoutDefault a) []
  rw [List.append_nil] at this
  unfold separated
  rw [show (ps.filter GParam.isLifetime ++ ps.filter GParam.isType ++ ps.filter GParam.isConst) = sep ps from rfl, this]
  simp only [parts, List.append_nil]
  exact readAll_map _ _ _ _ fun a _ => readParam_withoutDefault a

theorem read_unbound (ps : List GParam) : readAll readArg (parts [] (separated unbound ps)) = some ((sep ps).map name) := by
  have := parts_flatMap unbound (sep ps) (fun a _ => comma_unbound a) []
  rw [List.append_nil] at this
  unfold separated
  rw [show (ps.filter GParam.isLifetime ++ ps.filter GParam.isType ++ ps.filter GParam.isConst) = sep ps from rfl, this]
  simp only [parts, List.append_nil]
  exact readAll_map _ _ _ _ fun a _ => readArg_unbound a

theorem filter_lifetimes {ps : List GParam} (h : LifetimesFirst ps) :
    ps.filter GParam.isLifetime ++ ps.filter (fun p => !p.isLifetime) = ps := by
  induction ps with
  | nil => rfl
  | cons p ps ih =>
    have hp := List.pairwise_cons.1 h
    cases hl : p.isLifetime with
    | true => simp [hl, ih hp.2]
    | false =>
      have : ps.filter GParam.isLifetime = [] := by
        rw [List.filter_eq_nil_iff]
        intro q hq hl'
        have := hp.1 q hq (by cases q <;> simp_all [GParam.isLifetime, sort])
        cases p <;> simp_all [GParam.isLifetime, sort]
      have h2 : ps.filter (fun p => !p.isLifetime) = ps := by
        have := ih hp.2
        simp_all
      simp [hl, this, h2]

theorem read_generics {ps : List GParam} (h : LifetimesFirst ps) : readAll readParam (parts [] (generics ps)) = some ps := by
  unfold generics
  rw [filter_lifetimes h, parts_punctuated]
  · rw [readAll_map _ _ id _ (fun a _ => readParam_paramToks a)]; simp
  · intro s hs
    obtain ⟨p, -, rfl⟩ := List.mem_map.1 hs
    exact plain_paramToks p

/-- What can also be read as an argument. -/
def Bare : GParam → Prop
  | .lifetime _ bs => bs = []
  | .type _ bs d => bs = [] ∧ d = none
  | .const _ _ _ => False

instance (p : GParam) : Decidable (Bare p) := by cases p <;> unfold Bare <;> infer_instance

theorem readArg_paramToks (p : GParam) : readArg (paramToks p) = if Bare p then some (name p) else none := by
  cases p with
  | lifetime n bs =>
    cases bs with
    | nil => rfl
    | cons b bs => simp [paramToks, boundsToks, readArg, Bare]
  | type n bs d =>
    cases bs with
    | nil => cases d <;> simp [paramToks, boundsToks, readArg, Bare, defaultToks, name]
    | cons b bs => simp [paramToks, boundsToks, readArg, Bare]
  | const n t d => simp [paramToks, readArg, Bare]

theorem read_asArgs (ps : List GParam) :
    readAll readArg (parts [] (paramsAsArgs ps)) = if ∀ p ∈ ps, Bare p then some (ps.map name) else none := by
  unfold paramsAsArgs
  rw [parts_punctuated]
  · split
    · next h => exact readAll_map _ _ _ _ fun a ha => by rw [readArg_paramToks, if_pos (h a ha)]
    · next h =>
      push Not at h
      obtain ⟨p, hp, hb⟩ := h
      exact (readAll_none _ _).2 ⟨_, List.mem_map_of_mem hp, by rw [readArg_paramToks, if_neg hb]⟩
  · intro s hs
    obtain ⟨p, -, rfl⟩ := List.mem_map.1 hs
    exact plain_paramToks p

/-! ### Predicates -/

/-- Predicates, each with a comma. -/
def predToks (l : List Pred) : List Tok := l.flatMap fun p => [.pred p] ++ [.comma]

def readPreds (ts : List Tok) : Option (List Pred) := readAll readPred (parts [] ts)

theorem readPreds_predToks (l : List Pred) (ts : List Tok) : readPreds (predToks l ++ ts) = (readPreds ts).map (l ++ ·) := by
  unfold readPreds predToks
  rw [parts_flatMap (fun p => [Tok.pred p]) l (by simp), readAll_append, readAll_map readPred (fun p => [Tok.pred p]) id l (fun _ _ => rfl)]
  simp

theorem predToks_append (a b : List Pred) : predToks (a ++ b) = predToks a ++ predToks b := by simp [predToks]

theorem plain_user (l : List Nat) : ∀ s ∈ l.map (fun p => [Tok.pred (.user p)]), Plain s := by
  intro s hs
  obtain ⟨p, -, rfl⟩ := List.mem_map.1 hs
  simp [Plain]

theorem readPreds_clauses (w : Written) : readPreds w.clauses = some (w.preds.map .user) := by
  unfold readPreds Written.clauses
  have hr : readAll readPred (w.preds.map fun p => [Tok.pred (.user p)]) = some (w.preds.map .user) :=
    readAll_map _ _ _ _ fun _ _ => rfl
  split
  · next h =>
    rw [parts_punctuated_comma _ (plain_user _)]
    · simpa [parts] using hr
    · intro hn
      simp only [List.map_eq_nil_iff] at hn
      simp [hn] at h
  · rw [List.append_nil, parts_punctuated _ (plain_user _), hr]

/-- A predicate after the clauses is read if they have a comma at the end. -/
def Separated (w : Written) : Prop := w.preds = [] ∨ w.trailing = true

instance (w : Written) : Decidable (Separated w) := by unfold Separated; infer_instance

theorem readPreds_joined (l : List Nat) (h : l ≠ []) (q : Pred) : readPreds (punctuated (l.map fun p => [.pred (.user p)]) ++ [.pred q]) = none := by
  unfold readPreds
  induction l with
  | nil => simp at h
  | cons a l ih =>
    cases l with
    | nil => rfl
    | cons b l =>
      rw [List.map_cons, List.map_cons, punctuated, List.append_assoc, List.cons_append (a := Tok.comma), parts_comma _ _ _ (by simp), readAll]
      have := ih (by simp)
      rw [List.map_cons] at this
      rw [this]
      rfl

theorem readPreds_then (w : Written) (q : Pred) :
    readPreds (w.clauses ++ [.pred q]) = if Separated w then some (w.preds.map .user ++ [q]) else none := by
  by_cases hn : w.preds = []
  · rw [if_pos (show Separated w from Or.inl hn)]
    simp only [Written.clauses, hn]
    cases w.trailing <;> rfl
  · cases ht : w.trailing with
    | true =>
      rw [if_pos (show Separated w from Or.inr ht)]
      unfold readPreds Written.clauses
      have hi : (w.trailing && !w.preds.isEmpty) = true := by simp [ht, hn]
      rw [if_pos hi, List.append_assoc, List.singleton_append, parts_punctuated_comma _ (plain_user _) (by simpa using hn), readAll_append,
        readAll_map readPred (fun p => [Tok.pred (.user p)]) Pred.user _ (fun _ _ => rfl)]
      rfl
    | false =>
      rw [if_neg (by simp [Separated, hn, ht])]
      unfold Written.clauses
      have hi : ¬ ((w.trailing && !w.preds.isEmpty) = true) := by simp [ht]
      rw [if_neg hi, List.append_nil]
      exact readPreds_joined _ hn _

/-- The types of the fields, with repetitions. -/
def fieldTys : List Field → List FTy
  | [] => []
  | .ty t :: fs => t :: fieldTys fs
  | .variant ts :: fs => ts ++ fieldTys fs

def stable (t : FTy) : Pred := .stable (.leaf t)

/-- The state of the loop of `bounds`: the types that have been seen, and their predicates. -/
def Seen (s : List FTy × List Tok) (ts : List FTy) : Prop :=
  s.1.Nodup ∧ (∀ t, t ∈ s.1 ↔ t ∈ ts) ∧ s.2 = predToks (s.1.map stable)

theorem seen_ty {s : List FTy × List Tok} {ts : List FTy} (h : Seen s ts) (t : FTy) : Seen (boundsTy s t) (ts ++ [t]) := by
  obtain ⟨h1, h2, h3⟩ := h
  unfold boundsTy
  split
  · next hm =>
    refine ⟨h1, fun x => ?_, h3⟩
    rw [List.mem_append, ← h2, List.mem_singleton]
    exact ⟨Or.inl, fun hx => hx.elim id (fun hx => hx ▸ hm)⟩
  · next hm =>
    refine ⟨List.nodup_cons.2 ⟨hm, h1⟩, fun x => ?_, ?_⟩
    · simp [h2, or_comm]
    · simp [h3, predToks, stable]

theorem seen_tys {s : List FTy × List Tok} {ts : List FTy} (h : Seen s ts) (us : List FTy) : Seen (us.foldl boundsTy s) (ts ++ us) := by
  induction us generalizing s ts with
  | nil => simpa using h
  | cons u us ih =>
    have := ih (seen_ty h u)
    rwa [List.append_assoc] at this

theorem seen_fields {s : List FTy × List Tok} {ts : List FTy} (h : Seen s ts) (fs : List Field) :
    Seen (fs.foldl boundsField s) (ts ++ fieldTys fs) := by
  induction fs generalizing s ts with
  | nil => simpa [fieldTys] using h
  | cons f fs ih =>
    cases f with
    | ty t =>
      have := ih (seen_ty h t)
      rwa [List.append_assoc] at this
    | variant us =>
      have := ih (seen_tys h us)
      rwa [List.append_assoc] at this

/-- **C90** The bounds of a report are `T: IStable` for each type of the fields, once, each with its comma. -/
theorem C90_report (fs : List Field) : ∃ l : List FTy, l.Nodup ∧ (∀ t, t ∈ l ↔ t ∈ fieldTys fs) ∧ reportBounds fs = predToks (l.map stable) := by
  have := seen_fields (s := ([], [])) (ts := []) ⟨List.nodup_nil, by simp, rfl⟩ fs
  exact ⟨_, this.1, by simpa using this.2.1, this.2.2⟩

example : reportBounds [.ty (.ty 1), .variant [.ty 2, .ty 1], .ty .unit] = predToks ([.unit, .ty 2, .ty 1].map stable) := by decide +kernel

/-- The predicates that the tree of variants needs. -/
theorem result_bounds (vs : List FTy) : ∃ l : List Pred, (result vs).2 = predToks l ∧ ∀ n, Pred.user n ∉ l := by
  fun_induction result vs with
  | case1 vs h a b ih1 ih2 =>
    obtain ⟨la, ha, ha'⟩ := ih1
    obtain ⟨lb, hb, hb'⟩ := ih2
    refine ⟨[.det a.1 b.1, .stable b.1] ++ la ++ lb, ?_, ?_⟩
    · rw [predToks_append, predToks_append, ← ha, ← hb]; rfl
    · intro n; simp [ha', hb']
  | case2 vs h => exact ⟨[], rfl, by simp⟩

/-- The variants of a type made by `repr_stabby`, from left to right. -/
def leaves : RTy → List FTy
  | .leaf t => [t]
  | .result a b => leaves a ++ leaves b

/-- Both sides of every `Result` have as many variants, or the right one more. -/
def even : RTy → Prop
  | .leaf _ => True
  | .result a b => (leaves b).length = (leaves a).length + (leaves a ++ leaves b).length % 2 ∧ even a ∧ even b

/-- What it takes for the `Result`s of a type to be stable: `A: IDeterminantProvider<B>` and `B: IStable` for each. -/
def nodes : RTy → List Pred
  | .leaf _ => []
  | .result a b => [.det a b, .stable b] ++ nodes a ++ nodes b

/-- **C90** The type of an enum has each of its variants once, in order, in `Result`s that are balanced, and its bounds are exactly those that these need. -/
theorem C90_tree (vs : List FTy) (h : vs ≠ []) :
    leaves (result vs).1 = vs ∧ even (result vs).1 ∧ (result vs).2 = predToks (nodes (result vs).1) := by
  fun_induction result vs with
  | case1 vs hl a b ih1 ih2 =>
    have n1 : vs.take (vs.length / 2) ≠ [] := by
      intro e
      have := congrArg List.length e
      rw [List.length_take, List.length_nil] at this
      omega
    have n2 : vs.drop (vs.length / 2) ≠ [] := by
      intro e
      have := congrArg List.length e
      rw [List.length_drop, List.length_nil] at this
      omega
    obtain ⟨a1, a2, a3⟩ := ih1 n1
    obtain ⟨b1, b2, b3⟩ := ih2 n2
    refine ⟨?_, ⟨?_, a2, b2⟩, ?_⟩
    · simp only [leaves, a, b]
      rw [a1, b1, List.take_append_drop]
    · simp only [a, b]
      rw [a1, b1, List.take_append_drop, List.length_take, List.length_drop]
      omega
    · simp only [nodes]
      rw [predToks_append, predToks_append, ← a3, ← b3]
      rfl
  | case2 vs hl =>
    match vs, h, hl with
    | [v], _, _ => exact ⟨rfl, trivial, rfl⟩
    | _ :: _ :: _, _, hl => simp at hl

example : (result [.ty 1, .unit, .ty 2]).1 = .result (.leaf (.ty 1)) (.result (.leaf .unit) (.leaf (.ty 2))) := by decide +kernel

/-! ### Arguments -/

theorem sep_perm (ps : List GParam) : (sep ps).Perm ps := by
  induction ps with
  | nil => exact List.Perm.refl _
  | cons p ps ih =>
    cases p with
    | lifetime n bs =>
      simp only [sep, GParam.isLifetime, GParam.isType, GParam.isConst, List.filter_cons, Bool.false_eq_true, if_false, if_true] at ih ⊢
      exact ih.cons _
    | type n bs d =>
      simp only [sep, GParam.isLifetime, GParam.isType, GParam.isConst, List.filter_cons, Bool.false_eq_true, if_false, if_true] at ih ⊢
      rw [List.append_assoc, List.cons_append]
      rw [List.append_assoc] at ih
      exact List.perm_middle.trans (ih.cons _)
    | const n t d =>
      simp only [sep, GParam.isLifetime, GParam.isType, GParam.isConst, List.filter_cons, Bool.false_eq_true, if_false, if_true] at ih ⊢
      exact List.perm_middle.trans (ih.cons _)

theorem find_name {l : List GParam} (h : (l.map name).Nodup) {q : GParam} (hq : q ∈ l) :
    l.find? (fun p => name p = name q) = some q := by
  induction l with
  | nil => simp at hq
  | cons p l ih =>
    rw [List.map_cons, List.nodup_cons] at h
    rcases List.mem_cons.1 hq with rfl | hq
    · simp
    · rw [List.find?_cons_of_neg, ih h.2 hq]
      intro e
      exact h.1 (by rw [of_decide_eq_true e]; exact List.mem_map_of_mem hq)

theorem name_strip (p : GParam) : name (strip p) = name p := by cases p <;> rfl
theorem sort_strip (p : GParam) : sort (strip p) = sort p := by cases p <;> rfl
theorem boundsOf_strip (p : GParam) : boundsOf (strip p) = boundsOf p := by cases p <;> rfl
theorem default_strip (p : GParam) : default (strip p) = none := by cases p <;> rfl
theorem strip_of {p : GParam} (h : default p = none) : strip p = p := by cases p <;> simp_all [strip, default]

theorem find_strip {l : List GParam} (h : (l.map name).Nodup) {q : GParam} (hq : q ∈ l) :
    (l.map strip).find? (fun p => name p = name q) = some (strip q) := by
  rw [List.find?_map]
  have : (fun p => decide (name p = name q)) ∘ strip = fun p => decide (name p = name q) := by
    funext p; simp [name_strip]
  rw [this, find_name h hq]; rfl

/-- A parameter is given for another. -/
def Fit (d q : GParam) : Prop := sort q = sort d ∧ boundsOf d ⊆ boundsOf q

theorem fitsAll_iff {ps : List GParam} (ds qs : List GParam) (hf : ∀ q ∈ qs, ps.find? (fun p => name p = name q) = some (strip q)) :
    fitsAll ps ds (qs.map name) = true ↔ List.Forall₂ Fit ds qs := by
  induction qs generalizing ds with
  | nil => cases ds <;> simp [fitsAll]
  | cons q qs ih =>
    cases ds with
    | nil => simp [fitsAll]
    | cons d ds =>
      rw [List.map_cons, fitsAll, Bool.and_eq_true, ih ds (fun x hx => hf x (by simp [hx])), List.forall₂_cons, fitsOne, hf q (by simp)]
      simp [Fit, sort_strip, boundsOf_strip, List.subset_def]

theorem fit_self (l : List GParam) : List.Forall₂ Fit l l := by
  induction l with
  | nil => exact .nil
  | cons p l ih => exact .cons ⟨rfl, List.Subset.refl _⟩ ih

theorem fit_strip (l : List GParam) : List.Forall₂ Fit (l.map strip) l := by
  induction l with
  | nil => exact .nil
  | cons p l ih => exact .cons ⟨(sort_strip p).symm, by rw [boundsOf_strip]; exact List.Subset.refl _⟩ ih

theorem typesFirst_congr {a b : List GParam} (h : List.Forall₂ Fit a b) (hb : TypesFirst b) : TypesFirst a := by
  unfold TypesFirst at *
  induction h with
  | nil => exact .nil
  | @cons x y a b hxy hab ih =>
    rw [List.pairwise_cons] at hb ⊢
    refine ⟨fun z hz hs => ?_, ih hb.2⟩
    have : ∀ {a b : List GParam}, List.Forall₂ Fit a b → ∀ z ∈ a, ∃ z' ∈ b, sort z' = sort z := by
      intro a b hab
      induction hab with
      | nil => simp
      | cons h _ ih =>
        intro z hz
        rcases List.mem_cons.1 hz with rfl | hz
        · exact ⟨_, by simp, h.1⟩
        · obtain ⟨z', h1, h2⟩ := ih z hz
          exact ⟨z', by simp [h1], h2⟩
    obtain ⟨z', hz', hs'⟩ := this hab z hz
    have h1 := hb.1 z' hz' (hs'.trans hs)
    have h2 := hxy.1
    cases x <;> cases y <;> simp_all [sort, GParam.isConst]

theorem sep_typesFirst (ps : List GParam) : TypesFirst (sep ps) := by
  unfold TypesFirst sep
  rw [List.append_assoc, List.pairwise_append]
  refine ⟨?_, ?_, ?_⟩
  · refine List.pairwise_iff_forall_sublist.2 fun {a b} hab _ => ?_
    have := List.mem_filter.1 (hab.subset (show a ∈ [a, b] by simp))
    cases a <;> simp_all [GParam.isLifetime, GParam.isConst]
  · rw [List.pairwise_append]
    refine ⟨?_, ?_, ?_⟩
    · refine List.pairwise_iff_forall_sublist.2 fun {a b} hab _ => ?_
      have := List.mem_filter.1 (hab.subset (show a ∈ [a, b] by simp))
      cases a <;> simp_all [GParam.isType, GParam.isConst]
    · refine List.pairwise_iff_forall_sublist.2 fun {a b} hab hs => ?_
      have := List.mem_filter.1 (hab.subset (show b ∈ [a, b] by simp))
      cases b <;> simp_all [sort, GParam.isConst]
    · intro a ha b hb _
      have := List.mem_filter.1 ha
      cases a <;> simp_all [GParam.isType, GParam.isConst]
  · intro a ha b hb _
    have := List.mem_filter.1 ha
    cases a <;> simp_all [GParam.isLifetime, GParam.isConst]

theorem sep_eq {ps : List GParam} (h : LifetimesFirst ps) (h' : TypesFirst ps) : sep ps = ps := by
  induction ps with
  | nil => rfl
  | cons p ps ih =>
    have hp := List.pairwise_cons.1 h
    have hp' := List.pairwise_cons.1 h'
    have ih := ih hp.2 hp'.2
    have hl : p.isLifetime = false → ps.filter GParam.isLifetime = [] := fun hl => by
      rw [List.filter_eq_nil_iff]
      intro q hq hq'
      have := hp.1 q hq (by cases q <;> simp_all [GParam.isLifetime, sort])
      cases p <;> simp_all [GParam.isLifetime, sort]
    have ht : p.isConst = true → ps.filter GParam.isType = [] := fun hc => by
      rw [List.filter_eq_nil_iff]
      intro q hq hq'
      have := hp'.1 q hq (by cases q <;> simp_all [GParam.isType, sort])
      simp_all
    unfold sep at ih ⊢
    cases p with
    | lifetime n bs =>
      rw [List.filter_cons_of_pos rfl, List.filter_cons_of_neg (by simp [GParam.isType]), List.filter_cons_of_neg (by simp [GParam.isConst]),
        List.cons_append, List.cons_append, ih]
    | type n bs d =>
      rw [hl rfl] at ih
      rw [List.filter_cons_of_neg (by simp [GParam.isLifetime]), List.filter_cons_of_pos rfl, List.filter_cons_of_neg (by simp [GParam.isConst]),
        hl rfl, List.nil_append, List.cons_append]
      exact congrArg _ ih
    | const n t d =>
      rw [hl rfl, ht rfl] at ih
      rw [List.filter_cons_of_neg (by simp [GParam.isLifetime]), List.filter_cons_of_neg (by simp [GParam.isType]), List.filter_cons_of_pos rfl,
        hl rfl, ht rfl, List.nil_append, List.nil_append]
      exact congrArg _ ih

theorem fit_sep {ps : List GParam} (h : LifetimesFirst ps) : List.Forall₂ Fit ps (sep ps) ↔ TypesFirst ps :=
  ⟨fun hf => typesFirst_congr hf (sep_typesFirst ps), fun ht => by rw [sep_eq h ht]; exact fit_self ps⟩

theorem sep_lifetimesFirst (ps : List GParam) : LifetimesFirst ((sep ps).map strip) := by
  unfold LifetimesFirst sep
  rw [List.pairwise_map, List.append_assoc, List.pairwise_append]
  have key : ∀ b ∈ ps.filter GParam.isType ++ ps.filter GParam.isConst, sort (strip b) ≠ .lt := by
    intro b hb
    rw [sort_strip]
    rcases List.mem_append.1 hb with hb | hb <;> have := List.mem_filter.1 hb <;>
      cases b <;> simp_all [GParam.isType, GParam.isConst, sort]
  refine ⟨?_, ?_, ?_⟩
  · refine List.pairwise_iff_forall_sublist.2 fun {a b} hab _ => ?_
    have := List.mem_filter.1 (hab.subset (show a ∈ [a, b] by simp))
    rw [sort_strip]
    cases a <;> simp_all [GParam.isLifetime, sort]
  · exact List.pairwise_iff_forall_sublist.2 fun {a b} hab hs => absurd hs (key b (hab.subset (by simp)))
  · exact fun a _ b hb hs => absurd hs (key b hb)

/-! ### The whole output -/

/-- The `impl` that is read from parameters without defaults. -/
theorem read_implSep (ps : List GParam) (ts : List Tok) (x : Option (List Tok)) (hx : x = none ∨ x = some (separated unbound ps)) :
    readImpl ⟨separated withoutDefault ps, separated unbound ps, ts, x⟩ =
      (readPreds ts).map fun cs => ⟨(sep ps).map strip, (sep ps).map name, cs, x.map fun _ => (sep ps).map name⟩ := by
  have hd : ∀ p ∈ (sep ps).map strip, default p = none := by
    intro p hp
    obtain ⟨q, -, rfl⟩ := List.mem_map.1 hp
    exact default_strip q
  unfold readImpl
  simp only [read_withoutDefault, read_unbound, Option.bind_some]
  rw [show readAll readPred (parts [] ts) = readPreds ts from rfl]
  cases readPreds ts with
  | none => rfl
  | some cs =>
    rw [Option.bind_some, if_pos ⟨sep_lifetimesFirst ps, hd⟩]
    rcases hx with rfl | rfl
    · rfl
    · simp only [read_unbound]; rfl

theorem names_sep {ps : List GParam} (h : (ps.map name).Nodup) : ((sep ps).map name).Nodup := ((sep_perm ps).map name).nodup_iff.2 h

/-- Arguments of that `impl` fit the type with the parameters as they were written if types come first. -/
theorem fits_sep {ps : List GParam} (hl : LifetimesFirst ps) (hn : (ps.map name).Nodup) (dp cs : List Pred) (x : Option (List Arg))
    (hd : ∀ p ∈ dp, p ∈ cs) :
    fits ⟨ps, dp⟩ ⟨(sep ps).map strip, (sep ps).map name, cs, x⟩ ((sep ps).map name) = true ↔ TypesFirst ps := by
  unfold fits
  rw [Bool.and_eq_true, fitsAll_iff _ _ (fun q hq => find_strip (names_sep hn) hq), fit_sep hl]
  simpa using fun _ => hd

theorem fits_strip {ps : List GParam} (hn : (ps.map name).Nodup) (dp cs : List Pred) (x : Option (List Arg)) (hd : ∀ p ∈ dp, p ∈ cs) :
    fits ⟨(sep ps).map strip, dp⟩ ⟨(sep ps).map strip, (sep ps).map name, cs, x⟩ ((sep ps).map name) = true := by
  unfold fits
  rw [Bool.and_eq_true, fitsAll_iff _ _ (fun q hq => find_strip (names_sep hn) hq)]
  exact ⟨fit_strip _, by simpa using hd⟩

theorem itemOk_of {needs preds : List Nat} {ps : List GParam} (h : ∀ n ∈ needs, n ∈ preds) (a b : List Pred) :
    itemOk needs ⟨ps, a ++ preds.map .user ++ b⟩ = true := by
  simp only [itemOk, List.all_eq_true, decide_eq_true_eq]
  exact fun n hn => by simp [h n hn]

theorem struct_preds (w : Written) (l : List FTy) (h : reportBounds w.fields = predToks (l.map stable)) :
    readPreds (.pred .layout :: .comma :: reportBounds w.fields ++ w.clauses) = some (.layout :: l.map stable ++ w.preds.map .user) := by
  rw [h]
  have := readPreds_predToks (.layout :: l.map stable) w.clauses
  rw [readPreds_clauses] at this
  exact this

theorem struct_where (w : Written) (h : Legal w) (b : Body) :
    readItem ⟨generics w.params, w.whereClause, b, none⟩ = if b = .parens ∧ w.preds ≠ [] then none else some ⟨w.params, w.preds.map .user⟩ := by
  unfold readItem readWhere
  simp only [read_generics h.lifetimes, Option.bind_some, Written.whereClause]
  have hc := readPreds_clauses w
  unfold readPreds at hc
  by_cases hp : w.preds = []
  · rw [if_pos hp, if_neg (by simp [hp])]
    cases b <;> simp [hp, h.lifetimes, h.defaults]
  · rw [if_neg hp]
    cases b <;> simp [hp, hc, h.lifetimes, h.defaults]

theorem struct_compiles (w : Written) (h : Legal w) :
    compiles w.needs (struct w) = true ↔ TypesFirst w.params ∧ ¬(body w.shape = .parens ∧ w.preds ≠ []) := by
  obtain ⟨l, -, -, hl⟩ := C90_report w.fields
  have hp := struct_preds w l hl
  have hi := itemOk_of (ps := w.params) h.needs [] []
  rw [List.nil_append, List.append_nil] at hi
  unfold compiles struct
  simp only [struct_where w h]
  split
  · next hb =>
    split at hb
    · next hc => simp [hc]
    · simp at hb
  · next hb => simp at hb
  · next d x hb hx =>
    split at hb
    · simp at hb
    · next hc =>
      simp only [Option.some.injEq] at hb
      subst hb
      obtain rfl := Option.some.inj hx
      have key := fits_sep h.lifetimes h.names (w.preds.map .user) (.layout :: l.map stable ++ w.preds.map .user)
      simp only [struct_where w h, if_neg hc, hi, Bool.true_and, List.all_cons, List.all_nil, Bool.and_true, implOk,
        read_implSep w.params _ none (Or.inl rfl), read_implSep w.params _ (some (separated unbound w.params)) (Or.inr rfl), hp, Option.map_some,
        Option.map_none, Bool.and_eq_true]
      rw [key _ (fun _ h => List.mem_append_right _ h), key _ (fun _ h => List.mem_append_right _ h)]
      simp [hc]

/-- **C90** Structs with named fields, or none, are accepted exactly if types come before constants: their parameters, defaults, bounds and `where` clauses
can be as Rust allows. -/
theorem C90_struct (w : Written) (h : Legal w) (hs : w.shape = .named ∨ w.shape = .unit) :
    compiles w.needs (expand w) = true ↔ TypesFirst w.params := by
  have := struct_compiles w h
  rcases hs with hs | hs <;> simpa [expand, hs, body] using this

/-- **C90** Those with parentheses have no `where` clause. -/
theorem C90_tuple (w : Written) (h : Legal w) (hs : w.shape = .tuple) :
    compiles w.needs (expand w) = true ↔ TypesFirst w.params ∧ w.preds = [] := by
  have := struct_compiles w h
  simpa [expand, hs, body] using this

/-- **C90** Structs, unions and enums with a representation of their own keep their form, so that they are made and taken apart as written; so does the copy of a
struct that its size is compared with.  Enums without one become structs with parentheses (README.md:45: they cannot be matched on). -/
theorem C90_form (w : Written) :
    (w.shape = .named → (expand w).item.body = .braces ∧ ∃ a, (expand w).aux = some a ∧ a.body = .braces) ∧
    (w.shape = .tuple → (expand w).item.body = .parens ∧ ∃ a, (expand w).aux = some a ∧ a.body = .parens) ∧
    (w.shape = .unit → (expand w).item.body = .nothing ∧ ∃ a, (expand w).aux = some a ∧ a.body = .nothing) ∧
    (w.shape = .enumRepr ∨ w.shape = .union → (expand w).item.body = .braces ∧ (expand w).aux = none) ∧
    ∀ c, w.shape = .enumStabby c → (expand w).item.body = .parens ∧ ((expand w).aux.isSome = c) := by
  refine ⟨fun h => ?_, fun h => ?_, fun h => ?_, fun h => ?_, fun c h => ?_⟩
  · simp [expand, h, struct, body]
  · simp [expand, h, struct, body]
  · simp [expand, h, struct, body]
  · rcases h with h | h <;> simp [expand, h, plain]
  · cases c <;> simp [expand, h, stabbyEnum]

example : (expand ⟨.unit, [], [], false, [], []⟩).item.body = .nothing := rfl

theorem bare_default {p : GParam} (h : Bare p) : default p = none := by
  cases p <;> simp_all [Bare, default]

theorem plain_preds (fs : List Field) (l : List FTy) (h : reportBounds fs = predToks (l.map stable)) :
    readPreds (reportBounds fs ++ [.pred .layout]) = some (l.map stable ++ [.layout]) := by
  rw [h, readPreds_predToks]; rfl

theorem plain_impl (w : Written) (h : Legal w) (ts : List Tok) (cs : List Pred) (hp : readPreds ts = some cs) :
    readImpl ⟨generics w.params, paramsAsArgs w.params, ts, none⟩ =
      if ∀ p ∈ w.params, Bare p then some ⟨w.params, w.params.map name, cs, none⟩ else none := by
  unfold readPreds at hp
  unfold readImpl
  simp only [read_generics h.lifetimes, Option.bind_some, read_asArgs, hp]
  split
  · next hb =>
    rw [Option.bind_some, if_pos ⟨h.lifetimes, fun p hp => bare_default (hb p hp)⟩]
  · rfl

theorem plain_item (w : Written) (h : Legal w) : readItem ⟨generics w.params, none, .braces, none⟩ = some ⟨w.params, []⟩ := by
  unfold readItem readWhere
  simp [read_generics h.lifetimes, h.lifetimes, h.defaults]

theorem plain_compiles (w : Written) (h : Legal w) :
    compiles w.needs (plain w) = true ↔ (∀ p ∈ w.params, Bare p) ∧ w.needs = [] := by
  obtain ⟨l, -, -, hl⟩ := C90_report w.fields
  have hp := plain_preds w.fields l hl
  unfold compiles plain
  simp only [plain_item w h, List.all_cons, List.all_nil, Bool.and_true, implOk, plain_impl w h _ _ hp]
  have hi : itemOk w.needs ⟨w.params, []⟩ = true ↔ w.needs = [] := by
    simp only [itemOk, List.not_mem_nil, decide_false, List.all_eq_true, Bool.false_eq_true]
    exact (List.eq_nil_iff_forall_not_mem (l := w.needs)).symm
  by_cases hb : ∀ p ∈ w.params, Bare p
  · have hf : fits ⟨w.params, []⟩ ⟨w.params, w.params.map name, l.map stable ++ [.layout], none⟩ (w.params.map name) = true := by
      unfold fits
      rw [Bool.and_eq_true, fitsAll_iff _ _ (fun q hq => by rw [find_name h.names hq, strip_of (bare_default (hb q hq))])]
      exact ⟨fit_self _, rfl⟩
    simp only [if_pos hb, hf, Bool.and_true, hi]
    exact ⟨fun hn => ⟨hb, hn⟩, fun hn => hn.2⟩
  · simp only [if_neg hb, Bool.and_false, Bool.false_eq_true, false_iff]
    exact fun hh => hb hh.1

/-- **C90** Enums with a `repr`, and unions, are accepted exactly if they have no constants, defaults or bounds, and their fields don't need the `where`
clause. -/
theorem C90_plain (w : Written) (h : Legal w) (hs : w.shape = .enumRepr ∨ w.shape = .union) :
    compiles w.needs (expand w) = true ↔ (∀ p ∈ w.params, Bare p) ∧ w.needs = [] := by
  have := plain_compiles w h
  rcases hs with hs | hs <;> simpa [expand, hs] using this

theorem stabby_item (w : Written) (h : Legal w) (ts : List Tok) (cs : List Pred) (hp : readPreds ts = some cs) :
    readItem ⟨generics w.params, none, .parens, some ts⟩ = some ⟨w.params, cs⟩ := by
  unfold readPreds at hp
  unfold readItem readWhere
  simp [read_generics h.lifetimes, h.lifetimes, h.defaults, hp]

theorem stabby_aux (w : Written) (ts : List Tok) (cs : List Pred) (hp : readPreds ts = some cs) :
    readItem ⟨separated withoutDefault w.params, some ts, .braces, none⟩ = some ⟨(sep w.params).map strip, cs⟩ := by
  have hd : DefaultsLast ((sep w.params).map strip) := by
    unfold DefaultsLast
    rw [List.pairwise_map]
    exact List.pairwise_of_forall fun a _ ha => absurd (default_strip a) ha
  unfold readPreds at hp
  unfold readItem readWhere
  simp [read_withoutDefault, sep_lifetimesFirst, hd, hp]

theorem stabby_ctors (w : Written) (h : Legal w) (ts : List Tok) (cs : List Pred) (hp : readPreds ts = some cs) :
    readImpl ⟨generics w.params, separated unbound w.params, ts, none⟩ =
      if ∀ p ∈ w.params, default p = none then some ⟨w.params, (sep w.params).map name, cs, none⟩ else none := by
  unfold readPreds at hp
  unfold readImpl
  simp only [read_generics h.lifetimes, read_unbound, Option.bind_some, hp, h.lifetimes, true_and]

theorem fits_ctors {ps : List GParam} (hl : LifetimesFirst ps) (hn : (ps.map name).Nodup) (hd : ∀ p ∈ ps, default p = none) (cs : List Pred)
    (x : Option (List Arg)) : fits ⟨ps, cs⟩ ⟨ps, (sep ps).map name, cs, x⟩ ((sep ps).map name) = true ↔ TypesFirst ps := by
  unfold fits
  rw [Bool.and_eq_true, fitsAll_iff _ _ (fun q hq => ?_), fit_sep hl]
  · simp
  · have hq := (sep_perm ps).mem_iff.1 hq
    rw [find_name hn hq, strip_of (hd q hq)]

theorem stabby_compiles (w : Written) (h : Legal w) (check : Bool) :
    compiles w.needs (stabbyEnum check w) = true ↔ TypesFirst w.params ∧ (∀ p ∈ w.params, default p = none) ∧ Separated w := by
  obtain ⟨l, -, -, hl⟩ := C90_report w.fields
  obtain ⟨lr, hr, -⟩ := result_bounds (w.fields.map Field.leaf)
  have hb : readPreds ((result (w.fields.map Field.leaf)).2 ++ w.clauses) = some (lr ++ w.preds.map .user) := by
    rw [hr, readPreds_predToks, readPreds_clauses]; rfl
  have hp : readPreds (reportBounds w.fields ++ ((result (w.fields.map Field.leaf)).2 ++ w.clauses)) =
      some (l.map stable ++ (lr ++ w.preds.map .user)) := by
    rw [hl, readPreds_predToks, hb]; rfl
  have hs : ∀ q, readPreds (reportBounds w.fields ++ ((result (w.fields.map Field.leaf)).2 ++ w.clauses) ++ [.pred q]) =
      if Separated w then some (l.map stable ++ (lr ++ (w.preds.map .user ++ [q]))) else none := by
    intro q
    rw [hl, hr, List.append_assoc, List.append_assoc, readPreds_predToks, readPreds_predToks, readPreds_then]
    split <;> rfl
  have hi1 : itemOk w.needs ⟨w.params, l.map stable ++ (lr ++ w.preds.map .user)⟩ = true := by
    have := itemOk_of (ps := w.params) h.needs (l.map stable ++ lr) []
    rwa [List.append_nil, List.append_assoc] at this
  have hi2 : itemOk w.needs ⟨(sep w.params).map strip, lr ++ w.preds.map .user⟩ = true := by
    have := itemOk_of (ps := (sep w.params).map strip) h.needs lr []
    rwa [List.append_nil] at this
  unfold compiles stabbyEnum
  by_cases hsep : Separated w
  swap
  · have : ∀ d x a y, implOk d x ⟨separated withoutDefault w.params, separated unbound w.params,
        reportBounds w.fields ++ ((result (w.fields.map Field.leaf)).2 ++ w.clauses) ++ [.pred a], y⟩ = false := by
      intro d x a y
      unfold implOk readImpl
      have := hs a
      unfold readPreds at this
      simp only [read_withoutDefault, read_unbound, Option.bind_some, this, if_neg hsep, Option.bind_none]
    cases check <;> simp [stabby_item w h _ _ hp, stabby_aux w _ _ hb, hsep, -List.append_assoc, this]
  by_cases hd : ∀ p ∈ w.params, default p = none
  swap
  · have : ∀ d x, implOk d x ⟨generics w.params, separated unbound w.params,
        reportBounds w.fields ++ ((result (w.fields.map Field.leaf)).2 ++ w.clauses), none⟩ = false := by
      intro d x
      unfold implOk
      rw [stabby_ctors w h _ _ hp, if_neg hd]
    cases check <;> simp [stabby_item w h _ _ hp, stabby_aux w _ _ hb, hd, -List.append_assoc, this]
  have k1 := fits_sep h.lifetimes h.names (l.map stable ++ (lr ++ w.preds.map .user))
    (l.map stable ++ (lr ++ (w.preds.map .user ++ [.stable (result (w.fields.map Field.leaf)).1])))
  have k2 := fits_ctors h.lifetimes h.names hd (l.map stable ++ (lr ++ w.preds.map .user))
  have k3 := fits_strip h.names (lr ++ w.preds.map .user)
    (l.map stable ++ (lr ++ (w.preds.map .user ++ [.stable (result (w.fields.map Field.leaf)).1])))
  have m1 : ∀ p ∈ l.map stable ++ (lr ++ w.preds.map .user),
      p ∈ l.map stable ++ (lr ++ (w.preds.map .user ++ [.stable (result (w.fields.map Field.leaf)).1])) := by
    intro p hp
    simp only [List.mem_append] at hp ⊢
    tauto
  have m2 : ∀ p ∈ lr ++ w.preds.map .user,
      p ∈ l.map stable ++ (lr ++ (w.preds.map .user ++ [.stable (result (w.fields.map Field.leaf)).1])) := by
    intro p hp
    simp only [List.mem_append] at hp ⊢
    tauto
  cases check
  · simp only [stabby_item w h _ _ hp, Bool.false_eq_true, if_false, List.append_nil, List.all_cons, List.all_nil, Bool.and_true, hi1, Bool.true_and,
      implOk, read_implSep w.params _ none (Or.inl rfl), hs, if_pos hsep, Option.map_some, Option.map_none, stabby_ctors w h _ _ hp, if_pos hd,
      Bool.and_eq_true]
    rw [k1 _ m1, k2 _]
    exact ⟨fun t => ⟨t.1, hd, hsep⟩, fun t => by simp [t.1]⟩
  · simp only [stabby_item w h _ _ hp, stabby_aux w _ _ hb, if_true, List.cons_append, List.nil_append, List.all_cons, List.all_nil, Bool.and_true, hi1,
      hi2, Bool.true_and, implOk, read_implSep w.params _ none (Or.inl rfl),
      read_implSep w.params _ (some (separated unbound w.params)) (Or.inr rfl), hs, if_pos hsep, Option.map_some, Option.map_none,
      stabby_ctors w h _ _ hp, if_pos hd, Bool.and_eq_true]
    rw [k1 _ m1, k2 _, k1 _ m1, k3 _ m2]
    exact ⟨fun t => ⟨t.1, hd, hsep⟩, fun t => by simp [t.1]⟩

/-- **C90** Enums with the representation of stabby are accepted exactly if types come before constants, no parameter has a default, and the `where` clause,
if there is one, ends with a comma. -/
theorem C90_stabby (w : Written) (h : Legal w) (check : Bool) (hs : w.shape = .enumStabby check) :
    compiles w.needs (expand w) = true ↔ TypesFirst w.params ∧ (∀ p ∈ w.params, default p = none) ∧ Separated w := by
  have := stabby_compiles w h check
  simpa [expand, hs] using this

/-! ### What is kept -/

/-- The user's predicates. -/
def users : List Pred → List Nat
  | [] => []
  | .user n :: ps => n :: users ps
  | _ :: ps => users ps

/-- The type has the parameters and predicates that were written, and each `impl` is for all arguments. -/
structure Kept (w : Written) (preds : List Nat) (o : Output) : Prop where
  item : ∃ d, readItem o.item = some d ∧ d.params = w.params ∧ users d.preds = preds
  impls : ∀ h ∈ o.impls, ∃ i, readImpl h = some i ∧ i.params = w.params.map strip ∧ i.args = w.params.map name ∧ users i.preds = preds

theorem users_append (a b : List Pred) : users (a ++ b) = users a ++ users b := by
  induction a with
  | nil => rfl
  | cons p a ih => cases p <;> simp [users, ih]

theorem users_none (l : List Pred) (h : ∀ n, Pred.user n ∉ l) : users l = [] := by
  induction l with
  | nil => rfl
  | cons p l ih =>
    have ih := ih fun n hn => h n (by simp [hn])
    cases p with
    | user n => exact absurd (by simp) (h n)
    | _ => simpa [users] using ih

theorem users_map (l : List Nat) : users (l.map .user) = l := by
  induction l with
  | nil => rfl
  | cons a l ih => simp [users, ih]

theorem users_stable (l : List FTy) : users (l.map stable) = [] := users_none _ (by simp [stable])

/-- **C90** A struct, or an enum with the representation of stabby, that is accepted has the parameters, bounds, defaults and `where` clause that were
written, and what is implemented for it is for all arguments that these allow. -/
theorem C90_kept (w : Written) (h : Legal w) (hs : w.shape ≠ .enumRepr) (hu : w.shape ≠ .union) (hc : compiles w.needs (expand w) = true) :
    Kept w w.preds (expand w) := by
  obtain ⟨l, -, -, hl⟩ := C90_report w.fields
  have hp := struct_preds w l hl
  have hstruct : ∀ b : Prop, (TypesFirst w.params ∧ b) → body w.shape ≠ .parens ∨ w.preds = [] → Kept w w.preds (struct w) := by
    intro b ht hb
    have hsep := sep_eq h.lifetimes ht.1
    refine ⟨⟨⟨w.params, w.preds.map .user⟩, ?_, rfl, users_map _⟩, ?_⟩
    · simp only [struct, struct_where w h]
      rw [if_neg]
      tauto
    · intro i hi
      have hus : users (.layout :: l.map stable ++ w.preds.map .user) = w.preds := by
        rw [users_append, users_map]
        simp [users, users_stable]
      simp only [struct, List.mem_cons, List.not_mem_nil, or_false] at hi
      rcases hi with rfl | rfl
      · rw [read_implSep _ _ _ (Or.inl rfl), hp, hsep]
        exact ⟨_, rfl, rfl, rfl, hus⟩
      · rw [read_implSep _ _ _ (Or.inr rfl), hp, hsep]
        exact ⟨_, rfl, rfl, rfl, hus⟩
  cases hsh : w.shape with
  | named =>
    have := (C90_struct w h (Or.inl hsh)).1 hc
    simpa [expand, hsh] using hstruct True ⟨this, trivial⟩ (Or.inl (by simp [hsh, body]))
  | unit =>
    have := (C90_struct w h (Or.inr hsh)).1 hc
    simpa [expand, hsh] using hstruct True ⟨this, trivial⟩ (Or.inl (by simp [hsh, body]))
  | tuple =>
    have := (C90_tuple w h hsh).1 hc
    simpa [expand, hsh] using hstruct True ⟨this.1, trivial⟩ (Or.inr this.2)
  | enumRepr => exact absurd hsh hs
  | union => exact absurd hsh hu
  | enumStabby check =>
    obtain ⟨ht, hd, hsp⟩ := (C90_stabby w h check hsh).1 hc
    obtain ⟨lr, hr, hrn⟩ := result_bounds (w.fields.map Field.leaf)
    have hsep := sep_eq h.lifetimes ht
    have hpp : readPreds (reportBounds w.fields ++ ((result (w.fields.map Field.leaf)).2 ++ w.clauses)) =
        some (l.map stable ++ (lr ++ w.preds.map .user)) := by
      rw [hl, hr, readPreds_predToks, readPreds_predToks, readPreds_clauses]; rfl
    have hs' : ∀ q, readPreds (reportBounds w.fields ++ ((result (w.fields.map Field.leaf)).2 ++ w.clauses) ++ [.pred q]) =
        some (l.map stable ++ (lr ++ (w.preds.map .user ++ [q]))) := by
      intro q
      rw [hl, hr, List.append_assoc, List.append_assoc, readPreds_predToks, readPreds_predToks, readPreds_then, if_pos hsp]
      rfl
    have hu1 : users (l.map stable ++ (lr ++ w.preds.map .user)) = w.preds := by
      rw [users_append, users_append, users_stable, users_none _ hrn, users_map]; rfl
    have hu2 : ∀ r, users (l.map stable ++ (lr ++ (w.preds.map .user ++ [.stable r]))) = w.preds := by
      intro r
      rw [users_append, users_append, users_append, users_stable, users_none _ hrn, users_map]; simp [users]
    have hstrip : w.params = w.params.map strip := by
      conv_lhs => rw [← List.map_id w.params]
      exact List.map_congr_left fun p hp => (strip_of (hd p hp)).symm
    show Kept w w.preds (expand w)
    simp only [expand, hsh]
    refine ⟨⟨_, stabby_item w h _ _ hpp, rfl, hu1⟩, ?_⟩
    intro i hi
    have hi' : i = ⟨separated withoutDefault w.params, separated unbound w.params,
          reportBounds w.fields ++ ((result (w.fields.map Field.leaf)).2 ++ w.clauses) ++ [.pred (.stable (result (w.fields.map Field.leaf)).1)], none⟩ ∨
        i = ⟨generics w.params, separated unbound w.params, reportBounds w.fields ++ ((result (w.fields.map Field.leaf)).2 ++ w.clauses), none⟩ ∨
        i = ⟨separated withoutDefault w.params, separated unbound w.params,
          reportBounds w.fields ++ ((result (w.fields.map Field.leaf)).2 ++ w.clauses) ++ [.pred (.stable (result (w.fields.map Field.leaf)).1)],
          some (separated unbound w.params)⟩ := by
      cases check
      · simp only [stabbyEnum, Bool.false_eq_true, if_false, List.append_nil, List.mem_cons, List.not_mem_nil, or_false] at hi
        tauto
      · simp only [stabbyEnum, if_true, List.cons_append, List.nil_append, List.mem_cons, List.not_mem_nil, or_false] at hi
        tauto
    rcases hi' with rfl | rfl | rfl
    · rw [read_implSep _ _ _ (Or.inl rfl), hs', hsep]
      exact ⟨_, rfl, rfl, rfl, hu2 _⟩
    · rw [stabby_ctors w h _ _ hpp, if_pos hd, hsep]
      exact ⟨_, rfl, hstrip, rfl, hu1⟩
    · rw [read_implSep _ _ _ (Or.inr rfl), hs', hsep]
      exact ⟨_, rfl, rfl, rfl, hu2 _⟩

/-- **C90** An enum with a `repr` or a union that is accepted has the parameters that were written; none of the predicates is left. -/
theorem C90_kept_plain_partial (w : Written) (h : Legal w) (hs : w.shape = .enumRepr ∨ w.shape = .union) (hc : compiles w.needs (expand w) = true) :
    Kept w [] (expand w) := by
  obtain ⟨l, -, -, hl⟩ := C90_report w.fields
  have hp := plain_preds w.fields l hl
  have hb := ((C90_plain w h hs).1 hc).1
  have he : expand w = plain w := by rcases hs with hs | hs <;> simp [expand, hs]
  rw [he]
  refine ⟨⟨_, plain_item w h, rfl, rfl⟩, ?_⟩
  intro i hi
  simp only [plain, List.mem_cons, List.not_mem_nil, or_false] at hi
  subst hi
  rw [plain_impl w h _ _ hp, if_pos hb]
  refine ⟨_, rfl, ?_, rfl, ?_⟩
  · conv_lhs => rw [← List.map_id w.params]
    exact List.map_congr_left fun p hp => (strip_of (bare_default (hb p hp))).symm
  · rw [users_append, users_stable]; rfl

/-- **C90 refuted** for the `where` clauses of enums with a `repr`: `#[repr(u8)] enum E<T> where T: Trait { A(T) }` is accepted, and can be used with a `T`
that doesn't implement `Trait`. -/
theorem C90_where_refuted : ∃ w, Legal w ∧ compiles w.needs (expand w) = true ∧ ¬ Kept w w.preds (expand w) := by
  refine ⟨⟨.enumRepr, [.type 0 [] none], [7], true, [.ty (.ty 0)], []⟩, ⟨by decide, by decide, by decide, by simp⟩, by decide +kernel, ?_⟩
  rintro ⟨⟨d, hd, -, hu⟩, -⟩
  have : readItem (expand ⟨.enumRepr, [.type 0 [] none], [7], true, [.ty (.ty 0)], []⟩).item = some ⟨[.type 0 [] none], []⟩ := by decide +kernel
  rw [this] at hd
  obtain rfl := Option.some.inj hd
  simp [users] at hu

/-- **C90 refuted** for what Rust accepts: there are types that are legal without the attribute and refused with it: (1) `struct S<const N: usize, T>`, (2)
`struct S<T>(T) where T: Trait;`, (3) `#[repr(u8)] enum E<T: Trait>`, (4) `union U<const N: usize>`, (5) `#[repr(stabby)] enum E<T = u8>`, (6)
`#[repr(stabby)] enum E<T> where T: Trait {`. -/
theorem C90_refused_refuted :
    let refused (w : Written) := Legal w ∧ compiles w.needs (expand w) = false
    refused ⟨.named, [.const 0 9 none, .type 1 [] none], [], false, [.ty (.ty 1)], []⟩ ∧
    refused ⟨.tuple, [.type 1 [] none], [7], false, [.ty (.ty 1)], []⟩ ∧
    refused ⟨.enumRepr, [.type 1 [5] none], [], false, [.ty (.ty 1)], []⟩ ∧
    refused ⟨.union, [.const 0 9 none], [], false, [.ty (.ty 1)], []⟩ ∧
    refused ⟨.enumStabby false, [.type 1 [] (some 3)], [], false, [.ty (.ty 1), .ty .unit], []⟩ ∧
    refused ⟨.enumStabby false, [.type 1 [] none], [7], false, [.ty (.ty 1), .ty .unit], []⟩ := by
  refine ⟨⟨⟨?_, ?_, ?_, ?_⟩, ?_⟩, ⟨⟨?_, ?_, ?_, ?_⟩, ?_⟩, ⟨⟨?_, ?_, ?_, ?_⟩, ?_⟩, ⟨⟨?_, ?_, ?_, ?_⟩, ?_⟩, ⟨⟨?_, ?_, ?_, ?_⟩, ?_⟩,
    ⟨⟨?_, ?_, ?_, ?_⟩, ?_⟩⟩ <;> decide +kernel

/-- A struct with a lifetime, bounds, a default, a constant and a `where` clause. -/
def full (s : Shape) (d : Option Nat) : Written :=
  ⟨s, [.lifetime 0 [], .type 1 [5, 6] none, .type 2 [] d, .const 3 9 d], [7, 8], true, [.ty (.ty 1), .ty (.ty 2), .ty .unit], [8]⟩

example : Legal (full .named (some 4)) ∧ compiles [8] (expand (full .named (some 4))) = true := by
  refine ⟨⟨?_, ?_, ?_, ?_⟩, ?_⟩ <;> decide +kernel
example : Legal (full (.enumStabby true) none) ∧ compiles [8] (expand (full (.enumStabby true) none)) = true := by
  refine ⟨⟨?_, ?_, ?_, ?_⟩, ?_⟩ <;> decide +kernel
example : compiles [] (expand ⟨.tuple, [.type 1 [5] (some 4)], [], false, [.ty (.ty 1)], []⟩) = true := by decide +kernel
example : compiles [] (expand ⟨.union, [.lifetime 0 [], .type 1 [] none], [7], false, [.ty (.ty 1)], []⟩) = true := by decide +kernel

end Verif.Props.Generics
