import Verif.Sum.Pass
import Verif.Props.Combi

/-! Property C97.  The specification is an iterator over values, and a map as a function from keys to values. -/
namespace Verif.Props.Pass
open Verif.Sum Verif.Layout Verif.Props.Combi

variable {σ τ β γ δ ε : Type} {t : Ty}

theorem bind_rel {a b : Ty} {R : β → γ → Prop} {S : δ → ε → Prop} {x : MRun β} {y : SRun γ} {f : β → MRun δ} {g : γ → SRun ε}
    (h : RunRel a b R x y) (hf : ∀ p q, R p q → RunRel a b S (f p) (g q)) : RunRel a b S (x.bind f) (y.bind g) := by
  obtain ⟨xl, xo⟩ := x
  obtain ⟨yl, yo⟩ := y
  obtain ⟨hl, ho⟩ := h
  cases ho with
  | none => exact ⟨hl, .none⟩
  | some h => exact ⟨List.rel_append hl (hf _ _ h).log, (hf _ _ h).out⟩

theorem bind_left {a b : Ty} {R : β → γ → Prop} {S : δ → γ → Prop} {x : MRun β} {y : SRun γ} {f : β → MRun δ}
    (h : RunRel a b R x y) (hf : ∀ p q, R p q → RunRel a b S (f p) ⟨[], some q⟩) : RunRel a b S (x.bind f) y := by
  have e : y = y.bind fun q => (⟨[], some q⟩ : SRun γ) := by obtain ⟨yl, yo⟩ := y; cases yo <;> simp [Run.bind]
  rw [e]
  exact bind_rel h hf

/-- An iterator yields the memory of what another yields, in the same order, and does the same things meanwhile. -/
structure Alike (t : Ty) (S : σ → τ → Prop) (it : Iter Mem σ) (sp : Iter Val τ) : Prop where
  next : ∀ s s', S s s' →
    RunRel t .unit (fun r r' => Option.Rel (fun m v => Rep t v m) r.1 r'.1 ∧ S r.2 r'.2) (it.next s) (sp.next s')
  hint : ∀ s s', S s s' →
    RunRel t .unit (fun r r' => Rep .usize r'.1 r.1 ∧ Option.Rel (fun m v => Rep .usize v m) r.2 r'.2) (it.hint s) (sp.hint s')

/-- What is told agrees. -/
def ToldRel (t : Ty) : Told Mem → Told Val → Prop
  | .item o, .item o' => Option.Rel (fun m v => Rep t v m) o o'
  | .hint a o, .hint a' o' => Rep .usize a' a ∧ Option.Rel (fun m v => Rep .usize v m) o o'
  | _, _ => False

theorem run_rel {S : σ → τ → Prop} {it : Iter Mem σ} {sp : Iter Val τ} (h : Alike t S it sp) (l : List Ask) :
    ∀ s s', S s s' → RunRel t .unit (List.Forall₂ (ToldRel t)) (it.run l s) (sp.run l s') := by
  induction l with
  | nil => intro s s' _; exact pure_rel .nil
  | cons a l ih =>
    intro s s' hs
    cases a with
    | next =>
      refine bind_rel (h.next s s' hs) fun p q hpq => bind_rel (ih _ _ hpq.2) fun ts ts' ht => pure_rel ?_
      exact .cons hpq.1 ht
    | hint =>
      refine bind_rel (h.hint s s' hs) fun p q hpq => bind_rel (ih _ _ hs) fun ts ts' ht => pure_rel ?_
      exact .cons hpq ht

theorem option_wf (h : t.WF) (hs : t.lay.size % t.lay.align = 0) : (Ty.option t).WF := by
  have hu : Ty.unit.WF := ⟨⟨0, rfl⟩, trivial, by simp [Fv.offsets]⟩
  have hp := (ty_good h).align.pos
  refine ⟨h, hu, ?_⟩
  rw [show Ty.unit.lay.size = 0 from rfl, show Ty.unit.lay.align = 1 from rfl, Nat.max_zero, show max t.lay.align 1 = t.lay.align by omega]
  exact hs

theorem usize_wf : Ty.usize.WF := ⟨⟨3, rfl⟩, trivial, by simp [Fv.offsets]⟩

/-- Stable options handed over arrive unchanged. -/
theorem arrives (h : (Ty.option t).WF) {x : Option Mem} {o : Option Val} (hx : Option.Rel (fun m v => Rep t v m) x o) :
    RunRel t .unit (Option.Rel fun m v => Rep t v m) (toCoreOpt t (ofCoreOpt t x)) ⟨[], some o⟩ :=
  C61_option_to_core (C61_option_of_core_partial h hx)

theorem toCoreOpt_log (t : Ty) (m : Mem) : (toCoreOpt t m).log = [] := by
  unfold toCoreOpt matchOwned owning; split <;> rfl

theorem hint_min (min max : Mem) {v : Val} (h : Rep .usize v min) : Rep .usize v (mkHint min max) := by
  refine rep_congr usize_wf h (sameUsed_of_eq fun i hi => ?_)
  have hi' : i < 8 := hi
  have e : hintOff = 8 := by decide +kernel
  have e2 : Ty.usize.lay.size = 8 := rfl
  simp only [mkHint, Mem.write, e, e2]
  rw [if_neg (by omega), if_pos (by omega), Nat.sub_zero]

theorem hint_max (min max : Mem) {o : Option Val} (h : RepOpt .usize max o) : RepOpt .usize ((mkHint min max).at hintOff) o := by
  have hs : SameUsed (Ty.option .usize).lay.size (Ty.option .usize).lay.ub max ((mkHint min max).at hintOff) := by
    refine sameUsed_of_eq fun i hi => ?_
    simp only [mkHint, Mem.write, Mem.at]
    rw [if_pos (by omega), Nat.add_sub_cancel_left]
  have hw : (Ty.option .usize).WF := option_wf usize_wf rfl
  cases o with
  | none => exact rep_congr (t := .option .usize) hw h hs
  | some v => exact rep_congr (t := .option .usize) hw h hs

/-- One more trait object changes nothing. -/
theorem boxed_alike (h : t.WF) (hs : t.lay.size % t.lay.align = 0) {S : σ → τ → Prop} {it : Iter Mem σ} {sp : Iter Val τ}
    (ha : Alike t S it sp) : Alike t S (it.boxed t) sp where
  next s s' hss := by
    have e : (it.boxed t).next s =
        ((it.next s).bind fun r => (toCoreOpt t (ofCoreOpt t r.1)).bind fun o => .pure (o, r.2)) := by
      simp only [Iter.boxed, StableIter.core, Iter.stable]
      rcases it.next s with ⟨l, _ | r⟩ <;> simp [Run.bind, Run.pure]
    rw [e]
    refine bind_left (ha.next s s' hss) fun p q hpq => ?_
    have := bind_pure_rel (f := fun o => (o, p.2)) (g := fun o => (o, q.2)) (arrives (option_wf h hs) hpq.1)
      (S := fun r r' => Option.Rel (fun m v => Rep t v m) r.1 r'.1 ∧ S r.2 r'.2) fun o o' ho => ⟨ho, hpq.2⟩
    exact this
  hint s s' hss := by
    have e : (it.boxed t).hint s =
        ((it.hint s).bind fun r => (toCoreOpt .usize ((mkHint r.1 (ofCoreOpt .usize r.2)).at hintOff)).bind fun o =>
          .pure (mkHint r.1 (ofCoreOpt .usize r.2), o)) := by
      simp only [Iter.boxed, StableIter.core, Iter.stable]
      rcases it.hint s with ⟨l, _ | r⟩ <;> simp [Run.bind, Run.pure]
    rw [e]
    refine bind_left (ha.hint s s' hss) fun p q hpq => ?_
    have h1 := hint_max p.1 _ (C61_option_of_core_partial (option_wf usize_wf rfl) hpq.2)
    obtain ⟨hl, ho⟩ := C61_option_to_core h1
    rcases hc : toCoreOpt .usize ((mkHint p.1 (ofCoreOpt .usize p.2)).at hintOff) with ⟨l, _ | o⟩
    · rw [hc] at ho; cases ho
    · rw [hc] at ho hl
      have hl' : l = [] := by simpa using hl
      subst hl'
      cases ho with
      | some ho => exact ⟨.nil, .some ⟨hint_min _ _ hpq.1, ho⟩⟩

/-- **C97, iterators.**  However many trait objects an iterator is wrapped in, and whatever it is asked, the caller is told the same items,
the same end and the same size hints, as often as it asks; meanwhile the iterator does the same things, and no item is dropped on the way. -/
theorem C97_iterator (h : t.WF) (hs : t.lay.size % t.lay.align = 0) {S : σ → τ → Prop} {it : Iter Mem σ} {sp : Iter Val τ}
    (ha : Alike t S it sp) (n : Nat) (l : List Ask) (s : σ) (s' : τ) (hss : S s s') :
    RunRel t .unit (List.Forall₂ (ToldRel t)) ((it.boxedN t n).run l s) (sp.run l s') := by
  refine run_rel ?_ l s s' hss
  induction n with
  | zero => exact ha
  | succ n ih => exact boxed_alike h hs ih

/-- The iterator of a list. -/
def listIter {α : Type} (zero : α) (enc : Val → α) : Iter α (List Val) where
  next
    | [] => ⟨[], some (none, [])⟩
    | v :: l => ⟨[.user l.length], some (some (enc v), l)⟩
  hint _ := .pure (zero, none)

/-- Lists of `bool`s, behind seven trait objects. -/
example (l : List Val) (hl : ∀ v ∈ l, HasTy .bool v) (asks : List Ask) :
    RunRel .bool .unit (List.Forall₂ (ToldRel .bool)) (((listIter (fun _ => 0) (encode .bool)).boxedN .bool 7).run asks l)
      ((listIter (.raw [0, 0, 0, 0, 0, 0, 0, 0]) id).run asks l) := by
  have hb : Ty.bool.WF := ⟨⟨0, rfl⟩, by simp [Fv.WF], by simp [Fv.offsets]⟩
  refine C97_iterator hb rfl (S := fun s s' => s = s' ∧ ∀ v ∈ s, HasTy .bool v) ⟨?_, ?_⟩ 7 asks l l ⟨rfl, hl⟩
  · rintro s _ ⟨rfl, hs⟩
    cases s with
    | nil => exact ⟨.nil, .some ⟨.none, rfl, hs⟩⟩
    | cons v s => exact ⟨.cons rfl .nil, .some ⟨.some (encode_rep hb (hs v (by simp))), rfl, fun w hw => hs w (by simp [hw])⟩⟩
  · rintro s _ ⟨rfl, hs⟩
    refine ⟨.nil, .some ⟨⟨rfl, fun i hi => ?_, by simp [Fv.Forbids]⟩, .none⟩⟩
    have : i < 8 := hi
    have : i = 0 ∨ i = 1 ∨ i = 2 ∨ i = 3 ∨ i = 4 ∨ i = 5 ∨ i = 6 ∨ i = 7 := by omega
    rcases this with rfl | rfl | rfl | rfl | rfl | rfl | rfl | rfl <;> rfl

/-! ### Maps -/

variable {κ : Type} [DecidableEq κ]

/-- The map holds exactly the values of `f`, each in a place of its own that is not at address zero. -/
structure Holds (t : Ty) (m : StdMap κ) (f : κ → Option Val) : Prop where
  holds : ∀ k, Option.Rel (fun p v => Rep t v (m.heap p)) (m.slot k) (f k)
  addr : ∀ k p, m.slot k = some p → p.length = 8 ∧ ∃ b ∈ p, b ≠ 0
  apart : ∀ k j p, m.slot k = some p → m.slot j = some p → k = j

/-- What std promises: after the insertion the map holds the new value for the key, and the others are as before, wherever they are. -/
def StdContract (t : Ty) (std : StdMap κ → κ → Mem → StdMap κ) : Prop :=
  ∀ m f k x v, Holds t m f → Rep t v x → Holds t (std m k x) (fun j => if j = k then some v else f j)

/-- What a caller without trait would see. -/
def spec : List (MapOp κ Val) → (κ → Option Val) → List (Option Val)
  | [], _ => []
  | .get k :: l, f => f k :: spec l f
  | .insert k v :: l, f => f k :: spec l (fun j => if j = k then some v else f j)
  | .set k v :: l, f => f k :: spec l (fun j => if j = k ∧ (f k).isSome then some v else f j)

/-- Operations agree if the values in them do. -/
inductive OpRel (t : Ty) : MapOp κ Mem → MapOp κ Val → Prop where
  | get (k) : OpRel t (.get k) (.get k)
  | insert (k) {x v} : Rep t v x → OpRel t (.insert k x) (.insert k v)
  | set (k) {x v} : Rep t v x → OpRel t (.set k x) (.set k v)

theorem ref_wf : Ty.ref.WF := ⟨⟨3, rfl⟩, by simp [Fv.WF, Ty.nzHoles, Fv.IsBytes, Fv.offsets], by simp [Ty.nzHoles, Fv.offsets]⟩

theorem forbids_nz (m : Mem) : (Ty.nzHoles [0, 1, 2, 3, 4, 5, 6, 7]).Forbids m ↔ ∀ i, i < 8 → m i = 0 := by
  simp only [Ty.nzHoles, Fv.Forbids]
  constructor
  · rintro h i hi
    have : i = 0 ∨ i = 1 ∨ i = 2 ∨ i = 3 ∨ i = 4 ∨ i = 5 ∨ i = 6 ∨ i = 7 := by omega
    rcases this with rfl | rfl | rfl | rfl | rfl | rfl | rfl | rfl <;> simp_all
  · intro h
    simp [h]

theorem ref_rep {p : List Byte} (h8 : p.length = 8) (hn : ∃ b ∈ p, b ≠ 0) : Rep .ref (.raw p) (ptrMem p) := by
  refine ⟨h8, fun i hi => by simp [ptrMem, List.getD, hi], fun hf => ?_⟩
  have := (forbids_nz _).1 hf
  obtain ⟨b, hb, hne⟩ := hn
  obtain ⟨i, hi, rfl⟩ := List.getElem_of_mem hb
  exact hne (by have := this i (by omega); simpa [ptrMem, List.getD, hi] using this)

theorem ptrOf_rep {p : List Byte} {m : Mem} (h : Rep .ref (.raw p) m) : ptrOf m = p := by
  obtain ⟨h1, h2, _⟩ := h
  refine List.ext_getElem (by simp [ptrOf, h1]) fun i hi hi' => ?_
  simp [ptrOf, h2 i hi']

omit [DecidableEq κ] in
/-- What the caller gets for a reference. -/
theorem get_ref {m : StdMap κ} {f : κ → Option Val} (h : Holds t m f) (k : κ) :
    (∀ p, m.slot k = some p → isSome .ref (m.get k) = true ∧ ptrOf (okPtr Ty.ref.lay Ty.unit.lay (m.get k)) = p) ∧
    (m.slot k = none → isSome .ref (m.get k) = false) := by
  have hw : (Ty.option .ref).WF := option_wf ref_wf rfl
  constructor
  · intro p hp
    obtain ⟨h8, hn⟩ := h.addr k p hp
    have := mkOk_rep hw (ref_rep h8 hn)
    simp only [StdMap.get, hp, Option.map, ofCoreOpt, mkSome, isSome]
    exact ⟨this.1, ptrOf_rep this.2⟩
  · intro hp
    simp only [StdMap.get, hp, Option.map, ofCoreOpt, mkNone, isSome]
    exact (mkErr_rep hw (unit_rep _)).1

theorem write_holds (ht : t.WF) {m : StdMap κ} {f : κ → Option Val} (h : Holds t m f) {k : κ} {p : List Byte} (hp : m.slot k = some p)
    {x : Mem} {v : Val} (hx : Rep t v x) :
    Holds t (m.write t p x) (fun j => if j = k ∧ (f k).isSome then some v else f j) where
  addr := h.addr
  apart := h.apart
  holds j := by
    have hk : (f k).isSome := by have := h.holds k; rw [hp] at this; cases hf : f k <;> simp_all
    by_cases hj : j = k
    · subst hj
      simp only [hk, and_self, if_true, StdMap.write, hp]
      refine .some ?_
      rw [if_pos rfl]
      exact rep_congr ht hx (sameUsed_of_eq fun i hi => by simp [Mem.write, hi])
    · simp only [hj, false_and, if_false]
      have := h.holds j
      cases hq : m.slot j with
      | none =>
        rw [hq] at this
        cases hf : f j with
        | none => rw [show (m.write t p x).slot j = none from hq]; exact .none
        | some w => rw [hf] at this; cases this
      | some q =>
        rw [hq] at this
        cases hf : f j with
        | none => rw [hf] at this; cases this
        | some w =>
          rw [hf] at this
          cases this with
          | some this =>
            simp only [StdMap.write, hq]
            refine .some ?_
            rw [if_neg]
            · exact this
            · intro e; subst e; exact hj (h.apart _ _ _ hq hp)

/-- **C97, maps.**  Behind `IMap`, every sequence of look-ups, insertions and writes through references is answered as by the map itself. -/
theorem C97_map (ht : t.WF) (hs : t.lay.size % t.lay.align = 0) {std : StdMap κ → κ → Mem → StdMap κ} (hstd : StdContract t std)
    {l : List (MapOp κ Mem)} {l' : List (MapOp κ Val)} (hl : List.Forall₂ (OpRel t) l l') {m : StdMap κ} {f : κ → Option Val}
    (h : Holds t m f) : List.Forall₂ (Option.Rel fun x v => Rep t v x) (mapRun t std l m) (spec l' f) := by
  have hw := option_wf ht hs
  induction hl generalizing m f with
  | nil => exact .nil
  | cons ho _ ih =>
    cases ho with
    | get k =>
      refine .cons ?_ (ih h)
      obtain ⟨h1, h2⟩ := get_ref h k
      have := h.holds k
      cases hp : m.slot k with
      | none =>
        rw [hp] at this
        rw [if_neg (by simp [h2 hp])]
        cases hf : f k with
        | none => exact .none
        | some v => rw [hf] at this; cases this
      | some p =>
        rw [hp] at this
        rw [if_pos (h1 p hp).1, (h1 p hp).2]
        cases hf : f k with
        | none => rw [hf] at this; cases this
        | some v => rw [hf] at this; cases this with | some h => exact .some h
    | insert k hx =>
      refine .cons ?_ (ih (hstd _ _ _ _ _ h hx))
      have hr : Option.Rel (fun x v => Rep t v x) ((m.slot k).map m.heap) (f k) := by
        have := h.holds k
        cases hp : m.slot k with
        | none =>
          rw [hp] at this
          cases hf : f k with
          | none => exact .none
          | some v => rw [hf] at this; cases this
        | some p =>
          rw [hp] at this
          cases hf : f k with
          | none => rw [hf] at this; cases this
          | some v => rw [hf] at this; cases this with | some h => exact .some h
      have h1 := C61_option_of_core_partial hw hr
      show Option.Rel _ (if isSome t (ofCoreOpt t ((m.slot k).map m.heap)) then
        some (okPtr t.lay Ty.unit.lay (ofCoreOpt t ((m.slot k).map m.heap))) else none) _
      cases hf : f k with
      | none =>
        rw [hf] at h1
        rw [if_neg (by rw [C61_option_is_some h1]; simp)]
        exact .none
      | some v =>
        rw [hf] at h1
        rw [if_pos (by rw [C61_option_is_some h1]; simp)]
        exact .some h1.2
    | set k hx =>
      obtain ⟨h1, h2⟩ := get_ref h k
      have := h.holds k
      cases hp : m.slot k with
      | none =>
        rw [hp] at this
        rw [mapRun, if_neg (by rw [show m.getMut k = m.get k from rfl]; simp [h2 hp])]
        cases hf : f k with
        | none => simp only [spec, hf, Option.isSome_none, Bool.false_eq_true, and_false, if_false]; exact .cons .none (ih h)
        | some v => rw [hf] at this; cases this
      | some p =>
        rw [hp] at this
        rw [mapRun, if_pos (by rw [show m.getMut k = m.get k from rfl]; exact (h1 p hp).1),
          show m.getMut k = m.get k from rfl, (h1 p hp).2]
        refine .cons ?_ (ih (write_holds ht h hp hx))
        cases hf : f k with
        | none => rw [hf] at this; cases this
        | some v => rw [hf] at this; cases this with | some h => exact .some h

/-- The place of a key. -/
def place (k : Bool) : List Byte := [if k then 2 else 1, 0, 0, 0, 0, 0, 0, 0]
/-- A map with the keys `true` and `false`, whose values have fixed places. -/
def fixed (m : StdMap Bool) (k : Bool) (x : Mem) : StdMap Bool where
  slot j := if j = k ∨ (m.slot j).isSome then some (place j) else none
  heap p := if p = place k then x else if p = place (!k) then (m.slot (!k)).elim (fun _ => 0) m.heap else fun _ => 0

theorem place_inj {j k : Bool} (h : place j = place k) : j = k := by
  cases j <;> cases k <;> simp [place] at h ⊢

/-- It keeps the promise of std. -/
theorem fixed_contract (t : Ty) : StdContract t fixed := by
  intro m f k x v h hx
  refine ⟨fun j => ?_, fun j p hp => ?_, fun j j' p hj hj' => ?_⟩
  · by_cases hj : j = k
    · subst hj
      simp only [fixed, true_or, if_true]
      refine .some ?_
      rw [if_pos rfl]; exact hx
    · have hk : j = !k := by cases j <;> cases k <;> simp_all
      have := h.holds j
      simp only [hj, false_or, if_false, fixed]
      cases hs : m.slot j with
      | none =>
        rw [hs] at this
        simp only [Option.isSome_none, Bool.false_eq_true, if_false]
        cases hf : f j with
        | none => exact .none
        | some w => rw [hf] at this; cases this
      | some p =>
        rw [hs] at this
        simp only [Option.isSome_some, if_true]
        cases hf : f j with
        | none => rw [hf] at this; cases this
        | some w =>
          rw [hf] at this
          cases this with
          | some this =>
            refine .some ?_
            rw [if_neg fun e => hj (place_inj e), hk, if_pos rfl, ← hk, hs]
            exact this
  · simp only [fixed] at hp
    split at hp
    · cases hp
      exact ⟨rfl, if j then 2 else 1, by simp [place], by cases j <;> decide⟩
    · cases hp
  · simp only [fixed] at hj hj'
    split at hj <;> split at hj' <;> simp_all
    exact place_inj (hj.trans hj'.symm)

/-- Inserting, overwriting, and reading through the trait. -/
example (l : List (MapOp Bool Mem)) (l' : List (MapOp Bool Val)) (hl : List.Forall₂ (OpRel .bool) l l') :
    List.Forall₂ (Option.Rel fun x v => Rep .bool v x) (mapRun .bool fixed l ⟨fun _ => none, fun _ _ => 0⟩) (spec l' fun _ => none) :=
  C97_map (t := .bool) ⟨⟨0, rfl⟩, by simp [Fv.WF], by simp [Fv.offsets]⟩ rfl (fixed_contract _) hl ⟨fun _ => .none, nofun, nofun⟩

example : spec [.insert true (.raw [1]), .insert true (.raw [0]), .get true, .set true (.raw [1]), .set false (.raw [1]), .get true, .get false]
    (fun _ => none) = [none, some (.raw [1]), some (.raw [0]), some (.raw [0]), none, some (.raw [1]), none] := rfl

end Verif.Props.Pass
