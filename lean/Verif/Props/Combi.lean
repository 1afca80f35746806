import Verif.Sum.Combi
import Mathlib.Data.List.Forall2

/-! Property C61.  The specification is core's `Result` and `Option`, over the values of the payloads. -/
namespace Verif.Props.Combi
open Verif.Sum Verif.Layout

/-! ### core's methods on values -/

abbrev SRun := Run Val

namespace Spec
variable {β κ : Type}
/-- `match r { Ok(x) => ok(x), Err(x) => err(x) }`. -/
def cases (r : Core Val) (ok err : Val → SRun β) : SRun β :=
  match r with
  | .inl x => ok x
  | .inr x => err x
def drop : Core Val → List (Ev Val)
  | .inl x => [.dropOk x]
  | .inr x => [.dropErr x]
def ok : Core Val → SRun (Option Val)
  | .inl x => ⟨[], some (some x)⟩
  | .inr x => ⟨[.dropErr x], some none⟩
def err : Core Val → SRun (Option Val)
  | .inl x => ⟨[.dropOk x], some none⟩
  | .inr x => ⟨[], some (some x)⟩
def map (r : Core Val) (f : Val → SRun Val) : SRun (Core Val) :=
  match r with
  | .inl x => ⟨(f x).log, (f x).out.map .inl⟩
  | .inr x => ⟨[], some (.inr x)⟩
def andThen (r : Core Val) (f : Val → SRun (Core Val)) : SRun (Core Val) :=
  match r with
  | .inl x => f x
  | .inr x => ⟨[], some (.inr x)⟩
def unwrapOrElse (r : Core Val) (f : Val → SRun Val) : SRun Val :=
  match r with
  | .inl x => ⟨[], some x⟩
  | .inr x => f x
/-- Formatting is tried, then the payload is dropped while unwinding. -/
def unwrap (r : Core Val) (fmt : Val → SRun Unit) : SRun Val :=
  match r with
  | .inl x => ⟨[], some x⟩
  | .inr x => ⟨(fmt x).log ++ [.dropErr x], none⟩
def unwrapErr (r : Core Val) (fmt : Val → SRun Unit) : SRun Val :=
  match r with
  | .inl x => ⟨(fmt x).log ++ [.dropOk x], none⟩
  | .inr x => ⟨[], some x⟩
def clone (r : Core Val) (clOk clErr : Val → SRun Val) : SRun (Core Val) :=
  match r with
  | .inl x => ⟨(clOk x).log, (clOk x).out.map .inl⟩
  | .inr x => ⟨(clErr x).log, (clErr x).out.map .inr⟩
def eq (r r' : Core Val) (eqOk eqErr : Val → Val → SRun Bool) : SRun Bool :=
  match r, r' with
  | .inl x, .inl y => eqOk x y
  | .inr x, .inr y => eqErr x y
  | _, _ => ⟨[], some false⟩
end Spec

/-! ### What it means that memory and values agree -/

/-- Events agree if the payloads that are dropped do. -/
def EvRel (a b : Ty) : Ev Mem → Ev Val → Prop
  | .dropOk m, .dropOk v => Rep a v m
  | .dropErr m, .dropErr v => Rep b v m
  | .hashBool x, .hashBool y => x = y
  | .user n, .user k => n = k
  | _, _ => False

/-- Runs agree: the same things become visible in the same order, both unwind or neither, and the values returned agree. -/
structure RunRel {β γ : Type} (a b : Ty) (R : β → γ → Prop) (r : MRun β) (s : SRun γ) : Prop where
  log : List.Forall₂ (EvRel a b) r.log s.log
  out : Option.Rel R r.out s.out

/-- Memory holds the value of `core::result::Result`. -/
def RepCore (a b : Ty) (m : Mem) : Core Val → Prop
  | .inl v => Rep (.result a b) (.ok v) m
  | .inr v => Rep (.result a b) (.err v) m

/-- core results of payloads. -/
def CoreRel (a b : Ty) : Core Mem → Core Val → Prop
  | .inl m, .inl v => Rep a v m
  | .inr m, .inr v => Rep b v m
  | _, _ => False

/-- A closure that treats representations of the same value alike. -/
def FunRel {β γ : Type} (a b t : Ty) (R : β → γ → Prop) (f : Mem → MRun β) (g : Val → SRun γ) : Prop :=
  ∀ m v, Rep t v m → RunRel a b R (f m) (g v)

variable {β γ κ : Type} {a b c : Ty} {m : Mem} {r : Core Val}

theorem pure_rel {R : β → γ → Prop} {x : β} {y : γ} (h : R x y) : RunRel a b R (.pure x) ⟨[], some y⟩ :=
  ⟨.nil, .some h⟩

theorem bind_pure_rel {R : β → γ → Prop} {δ ε : Type} {S : δ → ε → Prop} {f : β → δ} {g : γ → ε} {x : MRun β} {y : SRun γ}
    (h : RunRel a b R x y) (hf : ∀ p q, R p q → S (f p) (g q)) :
    RunRel a b S (x.bind fun p => .pure (f p)) ⟨y.log, y.out.map g⟩ := by
  obtain ⟨xl, xo⟩ := x
  obtain ⟨yl, yo⟩ := y
  obtain ⟨hl, ho⟩ := h
  cases ho with
  | none => exact ⟨hl, .none⟩
  | some h => exact ⟨by simpa [Run.bind, Run.pure] using hl, .some (hf _ _ h)⟩

/-- `match` by value calls the closure of the variant with the payload, and drops nothing itself, whatever the closure does. -/
theorem C61_match_owned {R : β → γ → Prop} {ok err : Mem → MRun β} {ok' err' : Val → SRun γ} (hm : RepCore a b m r)
    (h1 : FunRel a b a R ok ok') (h2 : FunRel a b b R err err') : RunRel a b R (matchOwned a b m ok err) (Spec.cases r ok' err') := by
  cases r with
  | inl v => obtain ⟨hk, hv⟩ := hm; simpa [matchOwned, owning, hk, Spec.cases] using h1 _ _ hv
  | inr v => obtain ⟨hk, hv⟩ := hm; simpa [matchOwned, owning, hk, Spec.cases] using h2 _ _ hv

theorem C61_match_owned_ctx {R : β → γ → Prop} (ctx : κ) {ok err : κ → Mem → MRun β} {ok' err' : κ → Val → SRun γ} (hm : RepCore a b m r)
    (h1 : ∀ k, FunRel a b a R (ok k) (ok' k)) (h2 : ∀ k, FunRel a b b R (err k) (err' k)) :
    RunRel a b R (matchOwnedCtx a b m ctx ok err) (Spec.cases r (ok' ctx) (err' ctx)) :=
  C61_match_owned hm (h1 ctx) (h2 ctx)

theorem C61_match_ref {R : β → γ → Prop} {ok err : Mem → MRun β} {ok' err' : Val → SRun γ} (hm : RepCore a b m r)
    (h1 : FunRel a b a R ok ok') (h2 : FunRel a b b R err err') : RunRel a b R (matchRef a b m ok err) (Spec.cases r ok' err') := by
  cases r with
  | inl v => obtain ⟨hk, hv⟩ := hm; simpa [matchRef, hk, Spec.cases] using h1 _ _ hv
  | inr v => obtain ⟨hk, hv⟩ := hm; simpa [matchRef, hk, Spec.cases] using h2 _ _ hv

theorem C61_match_ref_ctx {R : β → γ → Prop} (ctx : κ) {ok err : κ → Mem → MRun β} {ok' err' : κ → Val → SRun γ} (hm : RepCore a b m r)
    (h1 : ∀ k, FunRel a b a R (ok k) (ok' k)) (h2 : ∀ k, FunRel a b b R (err k) (err' k)) :
    RunRel a b R (matchRefCtx a b m ctx ok err) (Spec.cases r (ok' ctx) (err' ctx)) :=
  C61_match_ref hm (h1 ctx) (h2 ctx)

/-- Dropping drops the payload, once. -/
theorem C61_drop (hm : RepCore a b m r) : List.Forall₂ (EvRel a b) (dropResult a b m) (Spec.drop r) := by
  cases r with
  | inl v => obtain ⟨hk, hv⟩ := hm; simpa [dropResult, hk, Spec.drop, EvRel] using hv
  | inr v => obtain ⟨hk, hv⟩ := hm; simpa [dropResult, hk, Spec.drop, EvRel] using hv

/-- Conversion from core, for types whose storage is not truncated (C12). -/
theorem C61_of_core_partial (h : (Ty.result a b).WF) {x : Core Mem} (hx : CoreRel a b x r) : RepCore a b (ofCore a b x) r := by
  cases x <;> cases r <;> simp only [CoreRel] at hx
  · exact mkOk_rep h hx
  · exact mkErr_rep h hx

/-- Conversion to core, and `as_ref`. -/
theorem C61_to_core (hm : RepCore a b m r) :
    RunRel a b (CoreRel a b) (toCore a b m) ⟨[], some r⟩ ∧ RunRel a b (CoreRel a b) (asRef a b m) ⟨[], some r⟩ := by
  have e : (⟨[], some r⟩ : SRun (Core Val)) = Spec.cases r (fun x => ⟨[], some (.inl x)⟩) (fun x => ⟨[], some (.inr x)⟩) := by
    cases r <;> rfl
  rw [e]
  exact ⟨C61_match_owned hm (fun _ _ h => pure_rel h) (fun _ _ h => pure_rel h),
    C61_match_ref hm (fun _ _ h => pure_rel h) (fun _ _ h => pure_rel h)⟩

/-- There and back. -/
theorem C61_round_trip_partial (h : (Ty.result a b).WF) {x : Core Mem} (hx : CoreRel a b x r) :
    RunRel a b (CoreRel a b) (toCore a b (ofCore a b x)) ⟨[], some r⟩ := (C61_to_core (C61_of_core_partial h hx)).1

/-- `ok`, `err`: the other payload is dropped. -/
theorem C61_ok_err (hm : RepCore a b m r) :
    RunRel a b (Option.Rel fun m v => Rep a v m) (okOf a b m) (Spec.ok r) ∧
    RunRel a b (Option.Rel fun m v => Rep b v m) (errOf a b m) (Spec.err r) := by
  have e1 : Spec.ok r = Spec.cases r (fun x => ⟨[], some (some x)⟩) (fun x => ⟨[.dropErr x], some none⟩) := by cases r <;> rfl
  have e2 : Spec.err r = Spec.cases r (fun x => ⟨[.dropOk x], some none⟩) (fun x => ⟨[], some (some x)⟩) := by cases r <;> rfl
  rw [e1, e2]
  refine ⟨C61_match_owned hm (fun _ _ h => pure_rel (.some h)) (fun _ _ h => ?_), C61_match_owned hm (fun _ _ h => ?_) (fun _ _ h => pure_rel (.some h))⟩
  · exact ⟨.cons h .nil, .some .none⟩
  · exact ⟨.cons h .nil, .some .none⟩

theorem C61_map_partial (h : (Ty.result c b).WF) {f : Mem → MRun Mem} {g : Val → SRun Val} (hm : RepCore a b m r)
    (hf : FunRel a b a (fun m v => Rep c v m) f g) : RunRel a b (RepCore c b) (mapOf a b c m f) (Spec.map r g) := by
  have e : Spec.map r g = Spec.cases r (fun x => ⟨(g x).log, (g x).out.map .inl⟩) (fun x => ⟨[], some (.inr x)⟩) := by cases r <;> rfl
  rw [e]
  exact C61_match_owned hm (fun _ _ hv => bind_pure_rel (hf _ _ hv) fun _ _ hr => mkOk_rep h hr) (fun _ _ hv => pure_rel (mkErr_rep h hv))

theorem C61_and_then_partial (h : (Ty.result c b).WF) {f : Mem → MRun Mem} {g : Val → SRun (Core Val)} (hm : RepCore a b m r)
    (hf : FunRel a b a (RepCore c b) f g) : RunRel a b (RepCore c b) (andThen a b c m f) (Spec.andThen r g) := by
  have e : Spec.andThen r g = Spec.cases r g (fun x => ⟨[], some (.inr x)⟩) := by cases r <;> rfl
  rw [e]
  exact C61_match_owned hm hf (fun _ _ hv => pure_rel (mkErr_rep h hv))

theorem C61_unwrap_or_else {f : Mem → MRun Mem} {g : Val → SRun Val} (hm : RepCore a b m r) (hf : FunRel a b b (fun m v => Rep a v m) f g) :
    RunRel a b (fun m v => Rep a v m) (unwrapOrElse a b m f) (Spec.unwrapOrElse r g) := by
  have e : Spec.unwrapOrElse r g = Spec.cases r (fun x => ⟨[], some x⟩) g := by cases r <;> rfl
  rw [e]
  exact C61_match_owned hm (fun _ _ hv => pure_rel hv) hf

theorem panic_rel {R : β → γ → Prop} {t : Ty} {fmt : Mem → MRun Unit} {fmt' : Val → SRun Unit} (hf : FunRel a b t (fun _ _ => True) fmt fmt')
    {d : Mem → Ev Mem} {d' : Val → Ev Val} (hd : ∀ m v, Rep t v m → EvRel a b (d m) (d' v)) :
    FunRel a b t R (panicWith fmt d) (fun x => ⟨(fmt' x).log ++ [d' x], none⟩) := by
  intro m v hv
  obtain ⟨hl, ho⟩ := hf m v hv
  have e : (panicWith fmt d m : MRun β) = ⟨(fmt m).log ++ [d m], none⟩ := by
    simp only [panicWith, Run.bind, Run.finally_]
    cases (fmt m).out <;> simp
  rw [e]
  exact ⟨List.rel_append hl (.cons (hd m v hv) .nil), .none⟩

/-- `unwrap` and `unwrap_err` hand out the payload or unwind, and then the other payload is dropped once, even if formatting it unwinds. -/
theorem C61_unwrap {fmtE fmtO : Mem → MRun Unit} {fmtE' fmtO' : Val → SRun Unit} (hm : RepCore a b m r)
    (hE : FunRel a b b (fun _ _ => True) fmtE fmtE') (hO : FunRel a b a (fun _ _ => True) fmtO fmtO') :
    RunRel a b (fun m v => Rep a v m) (unwrap a b m fmtE) (Spec.unwrap r fmtE') ∧
    RunRel a b (fun m v => Rep b v m) (unwrapErr a b m fmtO) (Spec.unwrapErr r fmtO') := by
  have e1 : Spec.unwrap r fmtE' = Spec.cases r (fun x => ⟨[], some x⟩) (fun x => ⟨(fmtE' x).log ++ [.dropErr x], none⟩) := by cases r <;> rfl
  have e2 : Spec.unwrapErr r fmtO' = Spec.cases r (fun x => ⟨(fmtO' x).log ++ [.dropOk x], none⟩) (fun x => ⟨[], some x⟩) := by cases r <;> rfl
  rw [e1, e2]
  exact ⟨C61_match_owned hm (fun _ _ hv => pure_rel hv) (panic_rel hE fun _ _ h => h),
    C61_match_owned hm (panic_rel hO fun _ _ h => h) (fun _ _ hv => pure_rel hv)⟩

theorem C61_clone_partial (h : (Ty.result a b).WF) {f g : Mem → MRun Mem} {f' g' : Val → SRun Val} (hm : RepCore a b m r)
    (hf : FunRel a b a (fun m v => Rep a v m) f f') (hg : FunRel a b b (fun m v => Rep b v m) g g') :
    RunRel a b (RepCore a b) (cloneOf a b m f g) (Spec.clone r f' g') := by
  have e : Spec.clone r f' g' = Spec.cases r (fun x => ⟨(f' x).log, (f' x).out.map .inl⟩) (fun x => ⟨(g' x).log, (g' x).out.map .inr⟩) := by
    cases r <;> rfl
  rw [e]
  exact C61_match_ref hm (fun _ _ hv => bind_pure_rel (hf _ _ hv) fun _ _ hr => mkOk_rep h hr)
    (fun _ _ hv => bind_pure_rel (hg _ _ hv) fun _ _ hr => mkErr_rep h hr)

/-- Equality compares the payloads of equal variants; results of different variants differ. -/
theorem C61_eq {m' : Mem} {r' : Core Val} {f g : Mem → Mem → MRun Bool} {f' g' : Val → Val → SRun Bool} (hm : RepCore a b m r) (hm' : RepCore a b m' r')
    (hf : ∀ x, ∀ v, Rep a v x → FunRel a b a (· = ·) (f x) (f' v)) (hg : ∀ x v, Rep b v x → FunRel a b b (· = ·) (g x) (g' v)) :
    RunRel a b (· = ·) (eqOf a b m m' f g) (Spec.eq r r' f' g') := by
  cases r <;> cases r' <;> obtain ⟨hk, hv⟩ := hm <;> obtain ⟨hk', hv'⟩ := hm' <;> simp only [eqOf, hk, hk', Spec.eq]
  · exact hf _ _ hv _ _ hv'
  · exact pure_rel rfl
  · exact pure_rel rfl
  · exact hg _ _ hv _ _ hv'

/-- Hashing writes the variant, then the payload. -/
theorem C61_hash {f g : Mem → MRun Unit} {f' g' : Val → SRun Unit} (hm : RepCore a b m r)
    (hf : FunRel a b a (· = ·) f f') (hg : FunRel a b b (· = ·) g g') :
    RunRel a b (· = ·) (hashOf a b m f g) (Spec.cases r (fun x => ⟨.hashBool true :: (f' x).log, (f' x).out⟩) (fun x => ⟨.hashBool false :: (g' x).log, (g' x).out⟩)) := by
  cases r with
  | inl v =>
    obtain ⟨hk, hv⟩ := hm
    have := hf _ _ hv
    exact ⟨by simpa [hashOf, hk, Spec.cases, Run.bind, Run.say, EvRel] using this.log, by simpa [hashOf, hk, Spec.cases, Run.bind, Run.say] using this.out⟩
  | inr v =>
    obtain ⟨hk, hv⟩ := hm
    have := hg _ _ hv
    exact ⟨by simpa [hashOf, hk, Spec.cases, Run.bind, Run.say, EvRel] using this.log, by simpa [hashOf, hk, Spec.cases, Run.bind, Run.say] using this.out⟩

/-- Equal results hash alike if equal payloads do. -/
theorem C61_hash_eq {m' : Mem} {f g : Mem → Mem → MRun Bool} {hf hg : Mem → MRun Unit} (h : (eqOf a b m m' f g).out = some true)
    (h1 : ∀ x y, (f x y).out = some true → hf x = hf y) (h2 : ∀ x y, (g x y).out = some true → hg x = hg y) :
    hashOf a b m hf hg = hashOf a b m' hf hg := by
  unfold eqOf at h
  unfold hashOf
  cases hk : isOk a.lay b.lay m <;> cases hk' : isOk a.lay b.lay m' <;> simp only [hk, hk', Run.pure] at h
  · simp [h2 _ _ h]
  · simp at h
  · simp at h
  · simp [h1 _ _ h]

/-! ### Options -/

/-- Memory holds the value of `core::option::Option`. -/
def RepOpt (t : Ty) (m : Mem) : Option Val → Prop
  | some v => Rep (Ty.option t) (.ok v) m
  | none => Rep (Ty.option t) (.err (.raw [])) m

theorem unit_rep (m : Mem) : Rep Ty.unit (.raw []) m := ⟨rfl, fun _ h => absurd h (Nat.not_lt_zero _), by simp [Fv.Forbids]⟩

def optCore : Option Val → Core Val
  | some v => .inl v
  | none => .inr (.raw [])

theorem repOpt {t : Ty} {o : Option Val} : RepOpt t m o ↔ RepCore t .unit m (optCore o) := by cases o <;> exact Iff.rfl

variable {t : Ty} {o : Option Val}

/-- Conversion from core, for types whose storage is not truncated (C12). -/
theorem C61_option_of_core_partial (h : (Ty.option t).WF) {x : Option Mem} (hx : Option.Rel (fun m v => Rep t v m) x o) :
    RepOpt t (ofCoreOpt t x) o := by
  cases hx with
  | none => exact mkErr_rep h (unit_rep _)
  | some hv => exact mkOk_rep h hv

theorem C61_option_match {R : β → γ → Prop} {f : Mem → MRun β} {n : MRun β} {f' : Val → SRun γ} {n' : SRun γ} (hm : RepOpt t m o)
    (hf : FunRel t .unit t R f f') (hn : RunRel t .unit R n n') :
    RunRel t .unit R (matchOwnedOpt t m f n) (o.elim n' f') ∧ RunRel t .unit R (matchRefOpt t m f n) (o.elim n' f') := by
  have e : o.elim n' f' = Spec.cases (optCore o) f' (fun _ => n') := by cases o <;> rfl
  rw [e]
  exact ⟨C61_match_owned (repOpt.1 hm) hf fun _ _ _ => hn, C61_match_ref (repOpt.1 hm) hf fun _ _ _ => hn⟩

theorem C61_option_to_core (hm : RepOpt t m o) : RunRel t .unit (Option.Rel fun m v => Rep t v m) (toCoreOpt t m) ⟨[], some o⟩ := by
  have e : (⟨[], some o⟩ : SRun (Option Val)) = o.elim ⟨[], some none⟩ (fun x => ⟨[], some (some x)⟩) := by cases o <;> rfl
  rw [e]
  exact (C61_option_match hm (fun _ _ h => pure_rel (.some h)) (pure_rel .none)).1

theorem C61_option_is_some (hm : RepOpt t m o) : isSome t m = o.isSome := by
  cases o <;> exact hm.1

theorem C61_option_unwrap {f : MRun Mem} {g : SRun Val} (hm : RepOpt t m o) (hf : RunRel t .unit (fun m v => Rep t v m) f g) :
    RunRel t .unit (fun m v => Rep t v m) (unwrapOrElseOpt t m f) (o.elim g fun x => ⟨[], some x⟩) ∧
    RunRel t .unit (fun m v => Rep t v m) (unwrapOpt t m) ⟨[], o⟩ := by
  refine ⟨(C61_option_match hm (fun _ _ h => pure_rel h) hf).1, ?_⟩
  have e : (⟨[], o⟩ : SRun Val) = o.elim ⟨[], none⟩ (fun x => ⟨[], some x⟩) := by cases o <;> rfl
  rw [e]
  exact (C61_option_match (R := fun m v => Rep t v m) hm (fun _ _ h => pure_rel h) ⟨.nil, .none⟩).1

theorem C61_option_clone_partial (h : (Ty.option t).WF) {f : Mem → MRun Mem} {f' : Val → SRun Val} (hm : RepOpt t m o)
    (hf : FunRel t .unit t (fun m v => Rep t v m) f f') :
    RunRel t .unit (RepOpt t) (cloneOpt t m f) (o.elim ⟨[], some none⟩ fun x => ⟨(f' x).log, (f' x).out.map some⟩) := by
  have e : o.elim ⟨[], some none⟩ (fun x => ⟨(f' x).log, (f' x).out.map some⟩) =
      Spec.cases (optCore o) (fun x => ⟨(f' x).log, (f' x).out.map some⟩) (fun _ => (⟨[], some none⟩ : SRun (Option Val))) := by
    cases o <;> rfl
  rw [e]
  refine C61_match_ref (repOpt.1 hm) (fun _ _ hv => bind_pure_rel (hf _ _ hv) fun _ _ hr => ?_) (fun _ _ _ => pure_rel ?_)
  · exact mkOk_rep h hr
  · exact mkErr_rep h (unit_rep _)

/-! ### Concrete cases -/

theorem bool_u32_wf : (Ty.result .bool .u32).WF := by
  refine ⟨⟨⟨0, rfl⟩, by simp [Fv.WF], by simp [Fv.offsets]⟩, ⟨⟨2, rfl⟩, trivial, by simp [Fv.offsets]⟩, rfl⟩

example : RepCore .bool .u32 (encode (.result .bool .u32) (.ok (.raw [1]))) (.inl (.raw [1])) :=
  encode_rep bool_u32_wf (by simp [HasTy, Ty.bool, Fv.Forbids])

/-- Formatting the payload unwinds: it is dropped nevertheless. -/
example : RunRel .bool .u32 (fun m v => Rep .u32 v m)
    (unwrapErr .bool .u32 (encode (.result .bool .u32) (.ok (.raw [1]))) fun _ => ⟨[.user 3], none⟩) ⟨[.user 3, .dropOk (.raw [1])], none⟩ :=
  (C61_unwrap (r := .inl (.raw [1])) (fmtE := fun _ => .pure ()) (fmtE' := fun _ => .pure ()) (fmtO := fun _ => ⟨[.user 3], none⟩)
    (fmtO' := fun _ => ⟨[.user 3], none⟩)
    (encode_rep bool_u32_wf (by simp [HasTy, Ty.bool, Fv.Forbids]))
    (fun _ _ _ => pure_rel trivial) (fun _ _ _ => ⟨.cons rfl .nil, .none⟩)).2

/-- A closure that unwinds has the payload: nothing else is dropped. -/
example : RunRel .bool .u32 (RepCore .u8 .u32)
    (mapOf .bool .u32 .u8 (encode (.result .bool .u32) (.ok (.raw [1]))) fun x => ⟨[.user 3, .dropOk x], none⟩)
    ⟨[.user 3, .dropOk (.raw [1])], none⟩ :=
  C61_map_partial (c := .u8) (r := .inl (.raw [1])) (g := fun x => ⟨[.user 3, .dropOk x], none⟩)
    (show (Ty.result .u8 .u32).WF from ⟨⟨⟨0, rfl⟩, trivial, by simp [Fv.offsets]⟩, ⟨⟨2, rfl⟩, trivial, by simp [Fv.offsets]⟩, rfl⟩)
    (encode_rep bool_u32_wf (by simp [HasTy, Ty.bool, Fv.Forbids]))
    (fun _ _ h => ⟨.cons rfl (.cons h .nil), .none⟩)

end Verif.Props.Combi
