import Verif.Report.Generic
import Verif.Props.Report

/-! C77: types with the same report are the same type, also if they are generic or recursive. -/
namespace Verif.Props.Generic
open Verif.Report hiding Ty
open Verif.Report.Generic
open Verif.Props.Report (reportEq_iff)

/-! ### Fields of reports -/

def flist : Fields → List (Str × Report)
  | .none => []
  | .some n t next => (n, t) :: flist next

theorem flist_rep (env : Nat → Report) : ∀ (fs : List (Str × Ty)) (acc : Fields),
    flist (repFields env acc fs) = (fs.map fun f => (f.1, rep env f.2)).reverse ++ flist acc
  | [], acc => by rw [repFields]; rfl
  | (n, t) :: fs, acc => by
    rw [repFields, flist_rep env fs, flist]
    simp

/-- Equal lists of fields come from equal lists. -/
theorem repFields_inj {env env' : Nat → Report} {fs gs : List (Str × Ty)} (h : repFields env .none fs = repFields env' .none gs) :
    (fs.map fun f => (f.1, rep env f.2)) = gs.map fun f => (f.1, rep env' f.2) := by
  have := congrArg flist h
  rw [flist_rep, flist_rep] at this
  simpa [flist] using this

theorem repFields_congr {env env' : Nat → Report} {fs : List (Str × Ty)} (h : repFields env .none fs = repFields env' .none fs) :
    ∀ f ∈ fs, rep env f.2 = rep env' f.2 := by
  intro f hf
  have := repFields_inj h
  have := List.map_inj_left.1 this f hf
  simpa using this

theorem reps_getD (env : Nat → Report) (as : List Ty) (i : Nat) : (reps env as).getD i noReport = rep env (as.getD i (.prim [])) := by
  induction as generalizing i with
  | nil => rw [reps]; simp [rep, noReport]
  | cons a as ih =>
    rw [reps]
    cases i with
    | zero => rfl
    | succ i => simpa using ih i

/-! ### Within one program -/

/-- The report of a type shows that of its parameter `i`. -/
inductive Vis : Nat → Ty → Prop where
  | var (i) : Vis i (.var i)
  | wrap {i n l t} : Vis i t → Vis i (.wrap n l t)
  | item {i j h ls cs as fs t f} : as[j]? = some t → Vis i t → f ∈ fs → Vis j f.2 → Vis i (.item h ls cs as fs)

theorem vis_env {i : Nat} {t : Ty} (h : Vis i t) : ∀ env env', rep env t = rep env' t → env i = env' i := by
  induction h with
  | var i => intro env env' e; simpa [rep] using e
  | wrap _ ih =>
    intro env env' e
    simp only [rep, Report.mk.injEq, Fields.some.injEq, true_and, and_true] at e
    exact ih env env' e
  | @item i j h ls cs as fs t f hj _ hf _ ih1 ih2 =>
    intro env env' e
    simp only [rep, Report.mk.injEq, true_and, and_true] at e
    have h1 := ih2 _ _ (repFields_congr e f hf)
    rw [reps_getD, reps_getD] at h1
    have : as.getD j (.prim []) = t := by rw [List.getD_eq_getElem?_getD, hj]; rfl
    rw [this] at h1
    exact ih1 env env' h1

/-- The declarations of a program: one for each module, name, kind and version.  Every type parameter is used other than in a `PhantomData`. -/
structure Program where
  fields : Header → List (Str × Ty)
  arity : Header → Nat
  used : ∀ h j, j < arity h → ∃ f ∈ fields h, Vis j f.2

/-- The types of a program without arguments that are lifetimes or constants; no declaration is in the module of the primitive types. -/
inductive Of (P : Program) : Ty → Prop where
  | prim (n) : Of P (.prim n)
  | wrap {n t} : Of P t → Of P (.wrap n .static t)
  | item {h as} : h.module ≠ implsModule → as.length = P.arity h → (∀ a ∈ as, Of P a) → Of P (.item h [] [] as (P.fields h))

/-- Types of one program, generic or recursive or both, are identified by their reports, except for what is only in a `PhantomData`, lifetimes and
constants. -/
theorem C77_unique_partial (P : Program) {a b : Ty} (ha : Of P a) (hb : Of P b) (h : report a = report b) : a = b := by
  unfold report at h
  induction ha generalizing b with
  | prim n =>
    cases hb with
    | prim m => simp only [rep, Report.mk.injEq, and_true] at h; rw [h]
    | wrap => simp [rep] at h
    | item hm => simp only [rep, Report.mk.injEq] at h; exact absurd h.2.1.symm hm
  | wrap _ ih =>
    cases hb with
    | prim m => simp [rep] at h
    | wrap hb =>
      simp only [rep, Report.mk.injEq, Fields.some.injEq, true_and, and_true] at h
      rw [h.1, ih hb h.2]
    | item hm => simp only [rep, Report.mk.injEq] at h; exact absurd h.2.1.symm hm
  | @item hd as hm hl has ih =>
    cases hb with
    | prim m => simp only [rep, Report.mk.injEq] at h; exact absurd h.2.1 hm
    | wrap _ => simp only [rep, Report.mk.injEq] at h; exact absurd h.2.1 hm
    | @item hd' bs hm' hl' hbs =>
      simp only [rep, Report.mk.injEq] at h
      obtain ⟨h1, h2, h3, h4, h5⟩ := h
      have : hd = hd' := by cases hd; cases hd'; simp_all
      subst this
      have : as = bs := by
        apply List.ext_getElem (by omega)
        intro j hj hj'
        obtain ⟨f, hf, hv⟩ := P.used hd j (by omega)
        have e := vis_env hv _ _ (repFields_congr h3 f hf)
        rw [reps_getD, reps_getD] at e
        simp only [List.getD_eq_getElem?_getD, List.getElem?_eq_getElem hj, List.getElem?_eq_getElem hj', Option.getD_some] at e
        exact ih _ (List.getElem_mem hj) (hbs _ (List.getElem_mem hj')) e
      rw [this]

/-- `struct Node<T> { value: T, next: *const Self }`, for `u8` and for `bool`. -/
def node : Header := ⟨[109], [78], .struct, 0⟩
def nodeFields : List (Str × Ty) := [([118], .var 0), ([110], .wrap [42] .static .self)]
def nodes : Program where
  fields h := if h = node then nodeFields else []
  arity h := if h = node then 1 else 0
  used h j hj := by
    by_cases e : h = node
    · simp only [e, if_true] at hj ⊢
      obtain rfl : j = 0 := by omega
      exact ⟨([118], .var 0), by simp [nodeFields], .var 0⟩
    · simp [e] at hj
example : Of nodes (.item node [] [] [.prim [117, 56]] nodeFields) ∧ Of nodes (.item node [] [] [.item node [] [] [.prim [98]] nodeFields] nodeFields) := by
  have e : nodes.fields node = nodeFields := rfl
  have h : ∀ a, Of nodes a → Of nodes (.item node [] [] [a] nodeFields) := by
    intro a ha
    rw [← e]
    exact .item (by simp [node, implsModule]) rfl (by simpa using ha)
  exact ⟨h _ (.prim _), h _ (h _ (.prim _))⟩

/-! ### Across programs -/

mutual
/-- Types of fields without `Self`, lifetimes, constants and `PhantomData`. -/
inductive Pure : Ty → Prop where
  | var (i) : Pure (.var i)
  | prim (n) : Pure (.prim n)
  | wrap {n t} : Pure t → Pure (.wrap n .static t)
  | item {h as fs} : h.module ≠ implsModule → h.module ≠ istableModule → (∀ a ∈ as, Pure a) → (∀ f ∈ fs, Field f.2) →
      Pure (.item h [] [] as fs)
/-- The same with `Self`, behind pointers but not as an argument of a generic type. -/
inductive Field : Ty → Prop where
  | pure {t} : Pure t → Field t
  | self : Field .self
  | wrap {n t} : Field t → Field (.wrap n .static t)
end

/-- Types without parameters, and so on. -/
inductive Ground : Ty → Prop where
  | prim (n) : Ground (.prim n)
  | wrap {n t} : Ground t → Ground (.wrap n .static t)
  | item {h as fs} : h.module ≠ implsModule → h.module ≠ istableModule → (∀ a ∈ as, Ground a) → (∀ f ∈ fs, Field f.2) →
      Ground (.item h [] [] as fs)

/-- `Self` behind pointers. -/
inductive Path : Ty → Prop where
  | self : Path .self
  | wrap {n t} : Path t → Path (.wrap n .static t)

theorem field_cases : ∀ {t : Ty}, Field t → Pure t ∨ Path t
  | _, .pure h => .inl h
  | _, .self => .inr .self
  | _, .wrap h => by
    rcases field_cases h with h | h
    · exact .inl (.wrap h)
    · exact .inr (.wrap h)

theorem substs_mem {ls : List Lt} {as : List Ty} {s x : Ty} : ∀ {ts : List Ty}, x ∈ substs ls as s ts → ∃ t ∈ ts, x = subst ls as s t
  | [], h => by rw [substs] at h; simp at h
  | t :: ts, h => by
    rw [substs] at h
    rcases List.mem_cons.1 h with rfl | h
    · exact ⟨t, List.mem_cons_self .., rfl⟩
    · obtain ⟨t', h1, h2⟩ := substs_mem h
      exact ⟨t', List.mem_cons_of_mem _ h1, h2⟩

theorem substs_eq (ls : List Lt) (as : List Ty) (s : Ty) : ∀ ts, substs ls as s ts = ts.map (subst ls as s)
  | [] => by rw [substs]; rfl
  | t :: ts => by rw [substs, substs_eq, List.map_cons]

theorem reps_eq (env : Nat → Report) : ∀ ts, reps env ts = ts.map (rep env)
  | [] => by rw [reps]; rfl
  | t :: ts => by rw [reps, reps_eq, List.map_cons]

theorem getD_ground {as : List Ty} (h : ∀ a ∈ as, Ground a) (i : Nat) : Ground (as.getD i (.prim [])) := by
  rw [List.getD_eq_getElem?_getD]
  cases e : as[i]? with
  | none => exact .prim _
  | some a => exact h a (List.mem_of_getElem? e)

theorem ground_subst {as : List Ty} (ha : ∀ a ∈ as, Ground a) (s : Ty) : ∀ {t : Ty}, Pure t → Ground (subst [] as s t)
  | _, .var i => by rw [subst]; exact getD_ground ha i
  | _, .prim n => by rw [subst]; exact .prim n
  | _, .wrap h => by rw [subst]; exact .wrap (ground_subst ha s h)
  | _, .item h1 h2 h3 h4 => by
    rw [subst]
    refine .item h1 h2 (fun x hx => ?_) h4
    obtain ⟨t, ht, rfl⟩ := substs_mem hx
    exact ground_subst ha s (h3 t ht)

/-- The report of a field is that of its type after substitution. -/
theorem rep_subst (env : Nat → Report) (as : List Ty) (s : Ty) : ∀ {t : Ty}, Pure t →
    rep env (subst [] as s t) = rep (fun i => rep env (as.getD i (.prim []))) t
  | _, .var i => by rw [subst, rep]
  | _, .prim n => by rw [subst, rep, rep]
  | _, .wrap h => by rw [subst, rep, rep, rep_subst env as s h]
  | _, .item (as := bs) (fs := fs) h1 h2 h3 h4 => by
    rw [subst, rep, rep]
    congr 1
    have : reps env (substs [] as s bs) = reps (fun i => rep env (as.getD i (.prim []))) bs := by
      rw [substs_eq, reps_eq, reps_eq, List.map_map]
      apply List.map_congr_left
      intro t ht
      exact rep_subst env as s (h3 t ht)
    rw [this]

theorem ground_ne_self {c : Ty} (h : Ground c) (env : Nat → Report) : rep env c ≠ selfReport := by
  cases h with
  | prim n => simp only [rep, selfReport, ne_eq, Report.mk.injEq, not_and]; intro _ h; exact absurd h (by decide)
  | wrap _ => simp [rep, selfReport]
  | item h1 h2 _ _ => simp only [rep, selfReport, ne_eq, Report.mk.injEq, not_and]; intro _ h; exact absurd h h2

theorem path_ne {g : Ty} (hg : Path g) : ∀ {c : Ty}, Ground c → ∀ env env', rep env g ≠ rep env' c := by
  induction hg with
  | self => intro c hc env env' e; rw [rep] at e; exact ground_ne_self hc _ e.symm
  | wrap _ ih =>
    intro c hc env env' e
    cases hc with
    | prim n => simp [rep] at e
    | wrap hc =>
      simp only [rep, Report.mk.injEq, Fields.some.injEq, true_and, and_true] at e
      exact ih hc env env' e.2
    | item h1 _ _ _ => simp only [rep, Report.mk.injEq] at e; exact h1 e.2.1.symm

/-- Fields that are paths to `Self` are the same path. -/
theorem path_unfold {f : Ty} (hf : Path f) : ∀ {g : Ty}, Path g → ∀ (env env' : Nat → Report) (as bs : List Ty) (s s' : Ty), rep env f = rep env' g →
    ∀ n, (∀ k ≤ n, Generic.unfold k s = Generic.unfold k s') → Generic.unfold n (subst [] as s f) = Generic.unfold n (subst [] bs s' g) := by
  induction hf with
  | self =>
    intro g hg env env' as bs s s' e n h
    cases hg with
    | self => rw [subst, subst]; exact h n (Nat.le_refl _)
    | wrap _ => simp [rep, selfReport] at e
  | wrap _ ih =>
    intro g hg env env' as bs s s' e n h
    cases hg with
    | self => simp [rep, selfReport] at e
    | wrap hg =>
      simp only [rep, Report.mk.injEq, Fields.some.injEq, true_and, and_true] at e
      rw [subst, subst]
      cases n with
      | zero => rfl
      | succ n => rw [Generic.unfold, Generic.unfold, e.1, ih hg env env' as bs s s' e.2 n fun k hk => h k (by omega)]

/-- Types with the same report are the same type, also if they come from different programs (or versions of a library), provided that `Self` is
only used behind pointers, and apart from lifetimes, constants and `PhantomData`. -/
theorem C77_shape_partial {a b : Ty} (ha : Ground a) (hb : Ground b) (h : report a = report b) : ∀ n, Generic.unfold n a = Generic.unfold n b := by
  intro n
  induction n using Nat.strongRecOn generalizing a b with
  | ind n ih =>
    cases n with
    | zero => rfl
    | succ n =>
      unfold report at h ih
      cases ha with
      | prim x =>
        cases hb with
        | prim y => simp only [rep, Report.mk.injEq, and_true] at h; rw [h]
        | wrap _ => simp [rep] at h
        | item hm => simp only [rep, Report.mk.injEq] at h; exact absurd h.2.1.symm hm
      | wrap ha =>
        cases hb with
        | prim y => simp [rep] at h
        | wrap hb =>
          simp only [rep, Report.mk.injEq, Fields.some.injEq, true_and, and_true] at h
          rw [Generic.unfold, Generic.unfold, h.1, ih n (Nat.lt_succ_self n) ha hb h.2]
        | item hm => simp only [rep, Report.mk.injEq] at h; exact absurd h.2.1.symm hm
      | @item hd as fs hm hi has hfs =>
        cases hb with
        | prim y => simp only [rep, Report.mk.injEq] at h; exact absurd h.2.1 hm
        | wrap hb => simp only [rep, Report.mk.injEq] at h; exact absurd h.2.1 hm
        | @item hd' bs gs hm' hi' hbs hgs =>
          have hab := h
          simp only [rep, Report.mk.injEq] at h
          obtain ⟨h1, h2, h3, h4, h5⟩ := h
          have : hd = hd' := by cases hd; cases hd'; simp_all
          subst this
          have e := repFields_inj h3
          rw [Generic.unfold, Generic.unfold]
          congr 1
          have hlen : fs.length = gs.length := by simpa using congrArg List.length e
          apply List.ext_getElem (by simpa using hlen)
          intro j hj hj'
          simp only [List.length_map] at hj hj'
          have ej := congrArg (fun l => l[j]?) e
          simp only [List.getElem?_map, List.getElem?_eq_getElem hj, List.getElem?_eq_getElem hj', Option.map_some, Option.some.injEq,
            Prod.mk.injEq] at ej
          simp only [List.getElem_map, Prod.mk.injEq]
          refine ⟨ej.1, ?_⟩
          have hf := hfs _ (List.getElem_mem hj)
          have hg := hgs _ (List.getElem_mem hj')
          generalize fs[j].2 = f at *
          generalize gs[j].2 = g at *
          have er := ej.2
          have e1 : (fun i => (reps (fun _ => noReport) as).getD i noReport) = fun i => rep (fun _ => noReport) (as.getD i (.prim [])) :=
            funext fun i => reps_getD _ _ _
          have e2 : (fun i => (reps (fun _ => noReport) bs).getD i noReport) = fun i => rep (fun _ => noReport) (bs.getD i (.prim [])) :=
            funext fun i => reps_getD _ _ _
          rw [e1, e2] at er
          have gs1 : Ground (.item hd [] [] as fs) := .item hm hi has hfs
          have gs2 : Ground (.item hd [] [] bs gs) := .item hm' hi' hbs hgs
          rcases field_cases hf with pf | pf <;> rcases field_cases hg with pg | pg
          · refine ih n (Nat.lt_succ_self n) (ground_subst has _ pf) (ground_subst hbs _ pg) ?_
            rw [rep_subst _ _ _ pf, rep_subst _ _ _ pg]
            exact er
          · rw [← rep_subst _ _ (.prim []) pf] at er
            exact absurd er.symm (path_ne pg (ground_subst has _ pf) _ _)
          · rw [← rep_subst _ _ (.prim []) pg] at er
            exact absurd er (path_ne pf (ground_subst hbs _ pg) _ _)
          · exact path_unfold pf pg _ _ as bs _ _ er n fun k hk => ih k (by omega) gs1 gs2 hab

example : Ground (.item node [] [] [.prim [117, 56]] nodeFields) := by
  refine .item (by simp [node, implsModule]) (by simp [node, istableModule]) (by simpa using .prim _) ?_
  intro f hf
  simp only [nodeFields, List.mem_cons, List.not_mem_nil, or_false] at hf
  rcases hf with rfl | rfl
  · exact .pure (.var 0)
  · exact .wrap .self

/-- The version of a `#[stabby]` type is the declared one, that of all other types, and of `Self`, is 0. -/
theorem C77_version (env : Nat → Report) (t : Ty) (ht : ∀ i, t ≠ .var i) :
    (rep env t).version = match t with | .item h .. => h.version | _ => 0 := by
  cases t with
  | var i => exact absurd rfl (ht i)
  | _ => simp [rep, selfReport, Report.version]

/-! ### Different types with the same report -/

/-- The types are different. -/
def Differ (a b : Ty) : Prop := ∃ n, Generic.unfold n a ≠ Generic.unfold n b

/-- Refuted: what is in a `PhantomData` does not show.  In particular the allocator of `Box<T, Alloc>` and `Arc<T, Alloc>` (alloc/mod.rs:257-264) does
not: a `Box<u8, A>` is downcast to, and imported as, a `Box<u8, B>`, which frees it with the wrong allocator. -/
theorem C77_phantom_refuted (box ptr : Header) (x y : Ty) (h : Differ x y) :
    let alloc (a : Ty) : Ty := .item box [] [] [.prim [117, 56], a]
      [([112], .item ptr [] [] [.var 0, .var 1] [([112], .wrap [78] .static (.var 0)), ([109], .phantom (.var 1))])]
    reportEq (report (alloc x)) (report (alloc y)) = true ∧ Differ (alloc x) (alloc y) := by
  refine ⟨(reportEq_iff _ _).2 (by simp [report, rep, repFields, reps]), ?_⟩
  obtain ⟨n, hn⟩ := h
  refine ⟨n + 3, ?_⟩
  simpa [Generic.unfold, subst, substs] using hn

example : Differ (.prim [1]) (.prim [2]) := ⟨1, by simp [Generic.unfold]⟩

/-- Refuted: lifetimes do not show: `DynRef::stable_downcast` turns a `&'a &'a T` into a `&'a &'static T` (fatptr.rs:146-151 asks for no
bound on the lifetimes of the target type, and objects are made of any `&'a T`, fatptr.rs:362-372). -/
theorem C77_lifetime_refuted (l l' : Lt) (h : l ≠ l') (name : Str) (t : Ty) :
    reportEq (report (.wrap name l t)) (report (.wrap name l' t)) = true ∧ Differ (.wrap name l t) (.wrap name l' t) :=
  ⟨(reportEq_iff _ _).2 (by simp [report, rep]), ⟨1, by simp [Generic.unfold, h]⟩⟩

/-- Refuted: constants do not show: `struct Fixed<const DIGITS: u8> { raw: i64 }`, or whether an `ArcBTreeSet` replaces on insertion. -/
theorem C77_const_refuted (h : Header) (c c' : Nat) (hc : c ≠ c') (args : List Ty) (fs : List (Str × Ty)) :
    reportEq (report (.item h [] [c] args fs)) (report (.item h [] [c'] args fs)) = true ∧ Differ (.item h [] [c] args fs) (.item h [] [c'] args fs) :=
  ⟨(reportEq_iff _ _).2 (by simp [report, rep]), ⟨1, by simp [Generic.unfold, hc]⟩⟩

/-- Refuted: `Self` as an argument of a generic type is confused with the `Self` of that type.  A library declares `struct W { p: *const Self }` and
`struct A { w: W }`; its next version declares `struct W<T> { p: *const T }` and `struct A { w: W<Self> }`: the pointer that was to a `W` is to an `A`. -/
theorem C77_self_refuted (a w : Header) :
    let old : Ty := .item a [] [] [] [([119], .item w [] [] [] [([112], .wrap [42] .static .self)])]
    let new : Ty := .item a [] [] [] [([119], .item w [] [] [.self] [([112], .wrap [42] .static (.var 0))])]
    reportEq (report old) (report new) = true ∧ Differ old new := by
  refine ⟨(reportEq_iff _ _).2 (by simp [report, rep, repFields, reps]), ⟨4, ?_⟩⟩
  simp [Generic.unfold, subst, substs]

/-- The reports of `PhantomData` and of the type that `Self` is replaced by are the same for all parameters, and bear their names. -/
theorem C77_names (env : Nat → Report) (t : Ty) :
    (rep env (.phantom t)).name = "core::marker::PhantomData".toList.map Char.toNat ∧
    (rep env (.phantom t)).module = "stabby_abi::stable_impls".toList.map Char.toNat ∧
    (rep env .self).name = "_Self".toList.map Char.toNat ∧ (rep env .self).module = "stabby_abi::istable".toList.map Char.toNat := by
  simp only [rep, selfReport, Report.name, Report.module]
  decide +kernel

/-- Refuted: lifetimes given to the types of fields do not show either, however deep: for `struct Inner<'a> { r: &'a u8 }` and
`struct Outer<'a> { i: Inner<'a> }`, both `Outer<'a>` and `Outer<'static>` have the same report, though the reference in them is not the same. -/
theorem C77_nested_lifetime_refuted (inner outer : Header) (f g n : Str) (t : Ty) (l l' : Lt) (h : l ≠ l') :
    let ty (l : Lt) : Ty := .item outer [l] [] [] [(f, .item inner [.param 0] [] [] [(g, .wrap n (.param 0) t)])]
    reportEq (report (ty l)) (report (ty l')) = true ∧ Differ (ty l) (ty l') ∧
      Generic.unfold 3 (ty l) = .item outer [l] [] [(f, .item inner [l] [] [(g, .wrap n l .cut)])] :=
  ⟨(reportEq_iff _ _).2 (by simp [report, rep, repFields, reps]), ⟨1, by simp [Generic.unfold, h]⟩,
    by simp [Generic.unfold, subst, substs, substLt]⟩

/-- Refuted: nor those in arguments of the types of fields: `struct Outer<'a> { i: Inner<&'a T> }`. -/
theorem C77_argument_lifetime_refuted (inner outer : Header) (f g n : Str) (p : Str) (l l' : Lt) (h : l ≠ l') :
    let ty (l : Lt) : Ty := .item outer [l] [] [] [(f, .item inner [] [] [.wrap n (.param 0) (.prim p)] [(g, .var 0)])]
    reportEq (report (ty l)) (report (ty l')) = true ∧ Differ (ty l) (ty l') ∧
      Generic.unfold 4 (ty l) = .item outer [l] [] [(f, .item inner [] [] [(g, .wrap n l (.prim p))])] :=
  ⟨(reportEq_iff _ _).2 (by simp [report, rep, repFields, reps]), ⟨1, by simp [Generic.unfold, h]⟩,
    by simp [Generic.unfold, subst, substs, substLt]⟩

/-- Refuted: the same for the argument of a `PhantomData` in the type of a field that depends on a parameter. -/
theorem C77_nested_phantom_refuted (inner outer : Header) (f g : Str) (x y : Ty) (h : Differ x y) :
    let ty (x : Ty) : Ty := .item outer [] [] [x] [(f, .item inner [] [] [.phantom (.var 0)] [(g, .var 0)])]
    reportEq (report (ty x)) (report (ty y)) = true ∧ Differ (ty x) (ty y) := by
  obtain ⟨k, hk⟩ := h
  refine ⟨(reportEq_iff _ _).2 (by simp [report, rep, repFields, reps]), ⟨k + 3, ?_⟩⟩
  simpa [Generic.unfold, subst, substs] using hk

end Verif.Props.Generic
