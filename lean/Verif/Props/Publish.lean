import Verif.Sync.Publish
/-! C73: what is published through an atomic is visible to those who find it. -/
namespace Verif.Props.Publish
open Verif.Sync.Publish

/-- Views are closed under pointers; what is published is in the view published with it; threads have seen what they hold. -/
structure Inv (s : St) : Prop where
  held : ∀ t o, o ∈ s.held t → s.view t o = true
  closed : ∀ t o c, s.view t o = true → c ∈ s.refs.getD o [] → s.view t c = true
  msg : ∀ m ∈ s.msgs, ∀ o, m.val = some o → m.view o = true
  mclosed : ∀ m ∈ s.msgs, ∀ o c, m.view o = true → c ∈ s.refs.getD o [] → m.view c = true
  fresh : ∀ t o, s.view t o = true → o < s.refs.length
  mfresh : ∀ m ∈ s.msgs, ∀ o, m.view o = true → o < s.refs.length

theorem inv_new : Inv St.new := by
  constructor <;> simp [St.new, View.empty]

theorem upd_same {α : Type} (f : Nat → α) (t : Nat) (x : α) : upd f t x t = x := by simp [upd]
theorem upd_other {α : Type} (f : Nat → α) (t u : Nat) (x : α) (h : u ≠ t) : upd f t x u = f u := by simp [upd, h]

theorem join_apply (a b : View) (o : Nat) : View.join a b o = (a o || b o) := rfl
theorem empty_apply (o : Nat) : View.empty o = false := rfl

theorem has_view {s : St} (hi : Inv s) {t : Nat} {p : Option Nat} (h : has s t p = true) : ∀ o, p = some o → s.view t o = true := by
  intro o ho
  subst ho
  exact hi.held t o (by simpa [has] using h)

/-- Joining a view that is closed keeps the invariant; `vs` are pointers in that view. -/
theorem inv_join {s : St} (hi : Inv s) (t : Nat) (v : View) (hc : ∀ o c, v o = true → c ∈ s.refs.getD o [] → v c = true) (hf : ∀ o, v o = true → o < s.refs.length)
    (vs : List Nat) (hv : ∀ o ∈ vs, v o = true ∨ s.view t o = true) (ts : Nat → Nat) :
    Inv { s with ts := ts, view := upd s.view t ((s.view t).join v), held := upd s.held t (vs ++ s.held t) } := by
  constructor
  · intro u o ho
    by_cases hu : u = t
    · subst hu
      simp only [upd_same, List.mem_append] at ho
      simp only [upd_same, View.join, Bool.or_eq_true]
      rcases ho with ho | ho
      · exact (hv o ho).symm
      · exact Or.inl (hi.held u o ho)
    · simp only [upd_other _ _ _ _ hu] at ho ⊢
      exact hi.held u o ho
  · intro u o c ho hcc
    by_cases hu : u = t
    · subst hu
      simp only [upd_same, View.join, Bool.or_eq_true] at ho ⊢
      rcases ho with ho | ho
      · exact Or.inl (hi.closed u o c ho hcc)
      · exact Or.inr (hc o c ho hcc)
    · simp only [upd_other _ _ _ _ hu] at ho ⊢
      exact hi.closed u o c ho hcc
  · exact hi.msg
  · exact hi.mclosed
  · intro u o ho
    by_cases hu : u = t
    · subst hu
      simp only [upd_same, View.join, Bool.or_eq_true] at ho
      rcases ho with ho | ho
      · exact hi.fresh u o ho
      · exact hf o ho
    · simp only [upd_other _ _ _ _ hu] at ho
      exact hi.fresh u o ho
  · exact hi.mfresh

theorem join_empty (v : View) : v.join View.empty = v := by
  funext o; simp [View.join, View.empty]

/-- Receiving a message keeps the invariant, if it is an acquire operation or the thread knows what it finds. -/
theorem inv_receive {s : St} (hi : Inv s) (t i : Nat) (m : Msg) (hm : m ∈ s.msgs) (acq : Bool) (h : acq = true ∨ ∀ o, m.val = some o → s.view t o = true) :
    Inv (receive s t i m acq) := by
  unfold receive
  cases acq with
  | true =>
    simp only [if_true]
    exact inv_join hi t m.view (hi.mclosed m hm) (hi.mfresh m hm) m.val.toList (fun o ho => Or.inl (hi.msg m hm o (by simpa using ho))) _
  | false =>
    simp only [Bool.false_eq_true, if_false]
    have := inv_join hi t View.empty (by simp [View.empty]) (by simp [View.empty]) m.val.toList
      (fun o ho => Or.inr (by simpa using (h.resolve_left (by simp)) o (by simpa using ho))) (upd s.ts t i)
    rwa [join_empty] at this

/-- A new message keeps the invariant if it is published with its value. -/
theorem inv_push {s : St} (hi : Inv s) (m : Msg) (h : ∀ o, m.val = some o → m.view o = true) (hc : ∀ o c, m.view o = true → c ∈ s.refs.getD o [] → m.view c = true)
    (hf : ∀ o, m.view o = true → o < s.refs.length) : Inv { s with msgs := s.msgs ++ [m] } := by
  refine ⟨hi.held, hi.closed, ?_, ?_, hi.fresh, ?_⟩ <;> intro m' hm' <;> rcases List.mem_append.1 hm' with hm' | hm'
  · exact hi.msg m' hm'
  · simp only [List.mem_singleton] at hm'; subst hm'; exact h
  · exact hi.mclosed m' hm'
  · simp only [List.mem_singleton] at hm'; subst hm'; exact hc
  · exact hi.mfresh m' hm'
  · simp only [List.mem_singleton] at hm'; subst hm'; exact hf

/-- The orderings that are enough for one operation, given what the thread knows. -/
def Enough (s : St) : Op → Prop
  | .load t i a => a = true ∨ ∀ m o, s.msgs[i]? = some m → m.val = some o → s.view t o = true
  | .swap _ _ new r _ => r = true ∨ new = none
  | .fail t i _ a => a = true ∨ ∀ m o, s.msgs[i]? = some m → m.val = some o → s.view t o = true
  | .store _ new r => r = true ∨ new = none
  | _ => True

theorem inv_make {s : St} (hi : Inv s) (t : Nat) (deps : List Nat) (h : ∀ d ∈ deps, d ∈ s.held t) :
    Inv { s with refs := s.refs ++ [deps], view := upd s.view t (upd (s.view t) s.refs.length true), held := upd s.held t (s.refs.length :: s.held t) } := by
  have old : ∀ o, o < s.refs.length → (s.refs ++ [deps]).getD o [] = s.refs.getD o [] := by
    intro o ho
    simp [List.getD, List.getElem?_append_left ho]
  have new : (s.refs ++ [deps]).getD s.refs.length [] = deps := by simp [List.getD]
  constructor
  · intro u o ho
    by_cases hu : u = t
    · subst hu
      simp only [upd_same, List.mem_cons] at ho ⊢
      by_cases hn : o = s.refs.length
      · subst hn; simp [upd]
      · rw [upd_other _ _ _ _ hn]; exact hi.held u o (ho.resolve_left hn)
    · simp only [upd_other _ _ _ _ hu] at ho ⊢
      exact hi.held u o ho
  · intro u o c ho hc
    by_cases hu : u = t
    · subst hu
      simp only [upd_same] at ho ⊢
      by_cases hn : o = s.refs.length
      · subst hn
        rw [new] at hc
        have hd := hi.held u c (h c hc)
        have := hi.fresh u c hd
        rw [upd_other _ _ _ _ (by omega)]; exact hd
      · rw [upd_other _ _ _ _ hn] at ho
        rw [old o (hi.fresh u o ho)] at hc
        have hd := hi.closed u o c ho hc
        have := hi.fresh u c hd
        rw [upd_other _ _ _ _ (by omega)]; exact hd
    · simp only [upd_other _ _ _ _ hu] at ho ⊢
      rw [old o (hi.fresh u o ho)] at hc
      exact hi.closed u o c ho hc
  · exact hi.msg
  · intro m hm o c ho hc
    rw [old o (hi.mfresh m hm o ho)] at hc
    exact hi.mclosed m hm o c ho hc
  · intro u o ho
    simp only [List.length_append, List.length_singleton]
    by_cases hu : u = t
    · subst hu
      simp only [upd_same] at ho
      by_cases hn : o = s.refs.length
      · omega
      · rw [upd_other _ _ _ _ hn] at ho
        have := hi.fresh u o ho; omega
    · simp only [upd_other _ _ _ _ hu] at ho
      have := hi.fresh u o ho; omega
  · intro m hm o ho
    simp only [List.length_append, List.length_singleton]
    have := hi.mfresh m hm o ho; omega

theorem inv_step {s s' : St} {op : Op} {r : Option (Nat × Nat)} (hi : Inv s) (he : Enough s op) (h : step s op = some (s', r)) :
    Inv s' ∧ ∀ t o, r = some (t, o) → s.view t o = true := by
  cases op with
  | make t deps =>
    simp only [step] at h
    split at h
    · rename_i hd
      cases h
      refine ⟨inv_make hi t deps fun d hd' => ?_, fun _ _ h => by cases h⟩
      simpa using (List.all_eq_true.1 hd) d hd'
    · cases h
  | load t i a =>
    simp only [step] at h
    split at h
    · rename_i m hm
      split at h
      · cases h
        refine ⟨inv_receive hi t i m (List.mem_of_getElem? hm) a ?_, fun _ _ h => by cases h⟩
        exact he.imp_right fun h o ho => h m o hm ho
      · cases h
    · cases h
  | fail t i c a =>
    simp only [step] at h
    split at h
    · rename_i m hm
      split at h
      · cases h
        refine ⟨inv_receive hi t i m (List.mem_of_getElem? hm) a ?_, fun _ _ h => by cases h⟩
        exact he.imp_right fun h o ho => h m o hm ho
      · cases h
    · cases h
  | swap t cur new rel acq =>
    simp only [step] at h
    split at h
    · rename_i m hm
      split at h
      · rename_i hc
        obtain ⟨hc, h1, h2⟩ := hc
        cases h
        have hmem := List.mem_of_getLast? hm
        have hr := inv_receive hi t s.msgs.length m hmem acq (Or.inr fun o ho => has_view hi h1 o (hc ▸ ho))
        refine ⟨?_, fun _ _ h => by cases h⟩
        refine inv_push hr ⟨new, if rel then (s.view t).join m.view else m.view⟩ ?_ ?_ ?_
        · intro o ho
          simp only at ho
          subst ho
          rcases he with he | he
          · simp [he, View.join, has_view hi h2 o rfl]
          · cases he
        · intro o c ho hcc
          simp only [receive] at hcc
          cases rel with
          | true =>
            simp only [if_true, View.join, Bool.or_eq_true] at ho ⊢
            exact ho.imp (fun ho => hi.closed t o c ho hcc) fun ho => hi.mclosed m hmem o c ho hcc
          | false =>
            simp only [Bool.false_eq_true, if_false] at ho ⊢
            exact hi.mclosed m hmem o c ho hcc
        · intro o ho
          simp only [receive]
          cases rel with
          | true =>
            simp only [if_true, View.join, Bool.or_eq_true] at ho
            exact ho.elim (hi.fresh t o) (hi.mfresh m hmem o)
          | false =>
            simp only [Bool.false_eq_true, if_false] at ho
            exact hi.mfresh m hmem o ho
      · cases h
    · cases h
  | store t new rel =>
    simp only [step] at h
    split at h
    · rename_i h2
      cases h
      refine ⟨?_, fun _ _ h => by cases h⟩
      refine inv_push (s := { s with ts := upd s.ts t s.msgs.length }) ⟨hi.held, hi.closed, hi.msg, hi.mclosed, hi.fresh, hi.mfresh⟩
        ⟨new, if rel then s.view t else View.empty⟩ ?_ ?_ ?_
      · intro o ho
        simp only at ho
        subst ho
        rcases he with he | he
        · simp [he, has_view hi h2 o rfl]
        · cases he
      · intro o c ho hcc
        cases rel with
        | true => exact hi.closed t o c ho hcc
        | false => simp [View.empty] at ho
      · intro o ho
        cases rel with
        | true => exact hi.fresh t o ho
        | false => simp [View.empty] at ho
    · cases h
  | access t o =>
    simp only [step] at h
    split at h
    · rename_i ho
      cases h
      refine ⟨hi, fun t' o' h => ?_⟩
      cases h
      exact hi.held t o (by simpa using ho)
    · cases h
  | follow t o c =>
    simp only [step] at h
    split at h
    · rename_i ho
      obtain ⟨ho, hc⟩ := ho
      cases h
      have hv := hi.held t o (by simpa using ho)
      refine ⟨?_, fun t' o' h => by cases h; exact hv⟩
      have := inv_join hi t View.empty (by simp [View.empty]) (by simp [View.empty]) [c]
        (fun x hx => Or.inr (by simp only [List.mem_singleton] at hx; subst hx; exact hi.closed t o x hv (by simpa using hc))) s.ts
      rw [join_empty] at this
      have e : upd s.view t (s.view t) = s.view := by funext u; simp only [upd]; split <;> simp_all
      rw [e] at this
      exact this
    · cases h
  | sync t u =>
    simp only [step] at h
    cases h
    refine ⟨?_, fun _ _ h => by cases h⟩
    have := inv_join hi u (s.view t) (hi.closed t) (hi.fresh t) [] (by simp) (upd s.ts u (max (s.ts u) (s.ts t)))
    have e : upd s.held u ([] ++ s.held u) = s.held := by funext v; simp only [upd]; split <;> simp_all
    rw [e] at this
    exact this
  | give t u o =>
    simp only [step] at h
    split at h
    · rename_i ho
      cases h
      refine ⟨?_, fun _ _ h => by cases h⟩
      exact inv_join hi u (s.view t) (hi.closed t) (hi.fresh t) [o]
        (fun x hx => Or.inl (by simp only [List.mem_singleton] at hx; subst hx; exact hi.held t x (by simpa using ho))) (upd s.ts u (max (s.ts u) (s.ts t)))
    · cases h

/-- All operations on the way have orderings that are enough. -/
def AllEnough (s : St) : List Op → Prop
  | [] => True
  | op :: ops => Enough s op ∧ match step s op with
    | none => True
    | some (s', _) => AllEnough s' ops

theorem sound_of_enough (ops : List Op) (s : St) (hi : Inv s) (h : AllEnough s ops) : Sound s ops := by
  induction ops generalizing s with
  | nil => trivial
  | cons op ops ih =>
    obtain ⟨h1, h2⟩ := h
    simp only [Sound]
    cases hs : step s op with
    | none => trivial
    | some p =>
      obtain ⟨s', r⟩ := p
      rw [hs] at h2
      obtain ⟨i1, i2⟩ := inv_step hi h1 hs
      exact ⟨i2, ih s' i1 h2⟩

theorem enough_of (P : Op → Prop) (hP : ∀ s op, P op → Enough s op) (ops : List Op) (s : St) (h : ∀ op ∈ ops, P op) : AllEnough s ops := by
  induction ops generalizing s with
  | nil => trivial
  | cons op ops ih =>
    refine ⟨hP s op (h op (by simp)), ?_⟩
    cases step s op with
    | none => trivial
    | some p => exact ih p.1 fun o ho => h o (by simp [ho])

/-- **C73**: which orderings make `AtomicArc` sound: acquire for every load (also for those of failed exchanges), release for every exchange and store.  With any
other choice there is a program, all of it safe code, in which a thread reads a value that it did not see being made. -/
theorem C73_orders (p : Orders) :
    (∀ ops : List Op, (∀ op ∈ ops, p.uses op) → Sound St.new ops) ↔ p = ⟨true, true, true, true⟩ := by
  constructor
  · intro h
    obtain ⟨l, w, f, st⟩ := p
    have h1 := h [.make 0 [], .swap 0 none (some 0) w false, .load 1 1 l, .access 1 0] (by simp [Orders.uses])
    have h2 := h [.make 0 [], .swap 0 none (some 0) w false, .fail 1 1 none f, .access 1 0] (by simp [Orders.uses])
    have h3 := h [.make 0 [], .store 0 (some 0) st, .load 1 1 l, .access 1 0] (by simp [Orders.uses])
    simp [Sound, step, St.new, upd, receive, has, empty_apply] at h1 h2 h3
    cases l <;> cases w <;> cases f <;> cases st <;> simp_all [join_apply, empty_apply, upd]
  · rintro rfl ops h
    refine sound_of_enough ops _ inv_new (enough_of _ ?_ ops _ h)
    intro s op ho
    cases op <;> simp_all [Orders.uses, Enough]

/-- **C73**: `AtomicArcBTreeSet::edit` is sound: whatever threads do with sets they got from `edit`, they only read nodes they saw being made, also through the nodes
that sets share. -/
theorem C73_edit (ops : List Op) (h : ∀ op ∈ ops, byEdit op) : Sound St.new ops := by
  refine sound_of_enough ops _ inv_new (enough_of _ ?_ ops _ h)
  intro s op ho
  cases op <;> simp_all [byEdit, Enough]

/-- **C73**: the registry of vtables is sound. -/
theorem C73_registry (ops : List Op) (h : ∀ op ∈ ops, byRegistry op) : Sound St.new ops := by
  refine sound_of_enough ops _ inv_new (enough_of _ ?_ ops _ h)
  intro s op ho
  cases op <;> simp_all [byRegistry, Enough]

/-- **C73** (refuted): `AtomicArcBTreeSet::get` is not: thread 0 makes a set and publishes it with `edit`, thread 1 gets it and reads a node that it did not see being made. -/
theorem C73_get_refuted : ∃ ops : List Op, (∀ op ∈ ops, byEdit op ∨ byGet op) ∧ ¬ Sound St.new ops := by
  refine ⟨[.make 0 [], .load 0 0 true, .swap 0 none (some 0) true false, .load 1 1 false, .access 1 0], by simp [byEdit, byGet], ?_⟩
  simp [Sound, step, St.new, upd, receive, has, empty_apply]

/-- The program synchronises by itself whatever is found by `get`: the thread that gets a set saw it being made. -/
def SelfSync (s : St) : List Op → Prop
  | [] => True
  | op :: ops => (∀ t i m o, op = .load t i false → s.msgs[i]? = some m → m.val = some o → s.view t o = true) ∧
    match step s op with
    | none => True
    | some (s', _) => SelfSync s' ops

/-- **C73** (partial): `edit` and `get` are sound together in programs where threads that `get` synchronise with the edits by other means.  Missing: the others. -/
theorem C73_get_partial (ops : List Op) (h : ∀ op ∈ ops, byEdit op ∨ byGet op) (hs : SelfSync St.new ops) : Sound St.new ops := by
  refine sound_of_enough ops _ inv_new ?_
  generalize St.new = s at hs
  induction ops generalizing s with
  | nil => trivial
  | cons op ops ih =>
    obtain ⟨h1, h2⟩ := hs
    refine ⟨?_, ?_⟩
    · have := h op (by simp)
      cases op with
      | load t i a =>
        cases a with
        | true => exact Or.inl rfl
        | false => exact Or.inr fun m o hm ho => h1 t i m o rfl hm ho
      | _ => simp_all [byEdit, byGet, Enough]
    · cases hst : step s op with
      | none => trivial
      | some p =>
        rw [hst] at h2
        exact ih (fun o ho => h o (by simp [ho])) p.1 h2

/-- Thread 0 publishes a set, thread 1 joins it, gets the set and follows a pointer in it. -/
def joined : List Op :=
  [.make 0 [], .make 0 [0], .load 0 0 true, .swap 0 none (some 1) true false, .sync 0 1, .load 1 1 false, .follow 1 1 0, .access 1 0]

example : (∀ op ∈ joined, byEdit op ∨ byGet op) ∧ SelfSync St.new joined := by
  refine ⟨by simp [joined, byEdit, byGet], ?_⟩
  simp [joined, SelfSync, step, St.new, upd, receive, has]
  rintro _ _ m o rfl rfl hm ho
  simp at hm
  subst hm
  simp at ho
  subst ho
  rfl

/-- Two threads edit in turn; the second reads the nodes of the first through its own set. -/
example : ∀ op ∈ ([.make 0 [], .load 0 0 true, .swap 0 none (some 0) true false, .load 1 1 true, .make 1 [0], .swap 1 (some 0) (some 1) true false,
    .fail 2 2 none true, .follow 2 1 0, .access 2 0] : List Op), byEdit op := by simp [byEdit]

/-! ### `CheckedImport` -/

/-- **C73** (refuted): a thread that finds a checked import validated by another thread reads the function pointer without having seen it being written. -/
theorem C73_import_refuted : ¬ ISound importCode Import.new [.lock 0, .publish 0, .load 1 2] := by
  simp [ISound, istep, Import.new, upd, importCode]

structure IInv (s : Import) : Prop where
  pub : ∀ m p, (m, p) ∈ s.msgs → m = .validated → p = true ∧ s.written = true

theorem iinv_step (acq : Bool) {s s' : Import} {op : IOp} {r : Option Nat} (hi : IInv s) (h : istep acq s op = some (s', r)) :
    IInv s' ∧ ∀ t, r = some t → s'.written = true ∧ (acq = true → s'.known t = true) := by
  cases op with
  | load t i =>
    simp only [istep] at h
    split at h
    · rename_i m p hm
      split at h
      · cases h
        refine ⟨⟨hi.pub⟩, fun t' ht => ?_⟩
        split at ht
        · rename_i hv
          cases ht
          obtain ⟨h1, h2⟩ := hi.pub m p (List.mem_of_getElem? hm) hv
          exact ⟨h2, fun ha => by simp [upd, ha, h1]⟩
        · cases ht
      · cases h
    · cases h
  | lock t =>
    simp only [istep] at h
    split at h
    · cases h
      refine ⟨⟨fun m p hm hv => ?_⟩, fun _ h => by cases h⟩
      rcases List.mem_append.1 hm with hm | hm
      · exact hi.pub m p hm hv
      · simp only [List.mem_singleton, Prod.mk.injEq] at hm; rw [hv] at hm; cases hm.1
    · cases h
  | publish t =>
    simp only [istep] at h
    split at h
    · cases h
      refine ⟨⟨fun m p hm hv => ⟨?_, rfl⟩⟩, fun t' ht => by cases ht; exact ⟨rfl, fun _ => by simp [upd]⟩⟩
      rcases List.mem_append.1 hm with hm | hm
      · exact (hi.pub m p hm hv).1
      · simp only [List.mem_singleton, Prod.mk.injEq] at hm; exact hm.2
    · cases h
  | sync t u =>
    simp only [istep] at h
    cases h
    exact ⟨⟨hi.pub⟩, fun _ h => by cases h⟩

/-- **C73**: with an acquire load it would be sound. -/
theorem C73_import_acquire (ops : List IOp) : ISound true Import.new ops := by
  have key : ∀ (ops : List IOp) (s : Import), IInv s → ISound true s ops := by
    intro ops
    induction ops with
    | nil => intro _ _; trivial
    | cons op ops ih =>
      intro s hi
      simp only [ISound]
      cases hs : istep true s op with
      | none => trivial
      | some p =>
        obtain ⟨h1, h2⟩ := iinv_step true hi hs
        exact ⟨fun t ht => ⟨(h2 t ht).2 rfl, (h2 t ht).1⟩, ih p.1 h1⟩
  exact key ops _ ⟨by simp [Import.new]⟩

/-- Threads that find the import validated synchronise with the one that validated it by other means. -/
def ISelfSync (s : Import) : List IOp → Prop
  | [] => True
  | op :: ops => (∀ t i p, op = .load t i → s.msgs[i]? = some (.validated, p) → s.known t = true) ∧
    match istep importCode s op with
    | none => True
    | some (s', _) => ISelfSync s' ops

/-- **C73** (partial): with the load of the code, the function pointer is only read after it is written, whatever the threads do; and all threads see it that synchronise with the
one that wrote it by other means (that one does).  Missing: the others. -/
theorem C73_import_partial (ops : List IOp) (h : ISelfSync Import.new ops) : ISound importCode Import.new ops := by
  have key : ∀ (ops : List IOp) (s : Import), IInv s → ISelfSync s ops → ISound importCode s ops := by
    intro ops
    induction ops with
    | nil => intro _ _ _; trivial
    | cons op ops ih =>
      intro s hi hs
      obtain ⟨g1, g2⟩ := hs
      simp only [ISound]
      cases hst : istep importCode s op with
      | none => trivial
      | some p =>
        rw [hst] at g2
        obtain ⟨h1, h2⟩ := iinv_step importCode hi hst
        refine ⟨fun t ht => ⟨?_, (h2 t ht).1⟩, ih p.1 h1 g2⟩
        cases op with
        | load u i =>
          simp only [istep] at hst
          split at hst
          · rename_i m q hm
            split at hst
            · cases hst
              simp only at ht
              split at ht
              · rename_i hv
                cases ht
                subst hv
                simp only [upd_same]
                rw [g1 _ _ q rfl hm]; rfl
              · cases ht
            · cases hst
          · cases hst
        | lock u =>
          simp only [istep] at hst
          split at hst
          · cases hst; cases ht
          · cases hst
        | publish u =>
          simp only [istep] at hst
          split at hst
          · cases hst; cases ht; simp [upd]
          · cases hst
        | sync u v => simp only [istep] at hst; cases hst; cases ht
  exact key ops _ ⟨by simp [Import.new]⟩ h

example : ISelfSync Import.new [.load 0 0, .lock 0, .load 1 0, .publish 0, .load 0 2, .sync 0 1, .load 1 2] := by
  simp [ISelfSync, istep, Import.new, upd, importCode]
  grind

/-! ### Coherence -/

/-- What can be reached. -/
inductive Reach : St → Prop where
  | new : Reach St.new
  | step {s s' : St} {op : Op} {r} : Reach s → step s op = some (s', r) → Reach s'

/-- No thread has seen more messages than there are. -/
theorem reach_ts {s : St} (h : Reach s) : ∀ t, s.ts t < s.msgs.length := by
  induction h with
  | new => intro t; simp [St.new]
  | @step s s' op r _ hs ih =>
    intro u
    cases op with
    | make t deps =>
      simp only [Verif.Sync.Publish.step] at hs
      split at hs
      · cases hs; exact ih u
      · cases hs
    | load t i acq =>
      simp only [Verif.Sync.Publish.step] at hs
      split at hs
      · rename_i m hm
        split at hs
        · cases hs
          have hi := (List.getElem?_eq_some_iff.mp hm).1
          simp only [receive, upd]
          split
          · exact hi
          · exact ih u
        · cases hs
      · cases hs
    | swap t cur new rel acq =>
      simp only [Verif.Sync.Publish.step] at hs
      split at hs
      · split at hs
        · cases hs
          simp only [receive, upd, List.length_append, List.length_singleton]
          split
          · omega
          · have := ih u; omega
        · cases hs
      · cases hs
    | fail t i cur acq =>
      simp only [Verif.Sync.Publish.step] at hs
      split at hs
      · rename_i m hm
        split at hs
        · cases hs
          have hi := (List.getElem?_eq_some_iff.mp hm).1
          simp only [receive, upd]
          split
          · exact hi
          · exact ih u
        · cases hs
      · cases hs
    | store t new rel =>
      simp only [Verif.Sync.Publish.step] at hs
      split at hs
      · cases hs
        simp only [upd, List.length_append, List.length_singleton]
        split
        · omega
        · have := ih u; omega
      · cases hs
    | access t o =>
      simp only [Verif.Sync.Publish.step] at hs
      split at hs
      · cases hs; exact ih u
      · cases hs
    | follow t o c =>
      simp only [Verif.Sync.Publish.step] at hs
      split at hs
      · cases hs; exact ih u
      · cases hs
    | sync t v =>
      cases hs
      simp only [upd]
      split
      · have := ih v; have := ih t; omega
      · exact ih u
    | give t v o =>
      simp only [Verif.Sync.Publish.step] at hs
      split at hs
      · cases hs
        simp only [upd]
        split
        · have := ih v; have := ih t; omega
        · exact ih u
      · cases hs

/-- What the model lets threads do: loads and failed exchanges may return any message that is not older than what the thread has seen (a failed one not what was expected), exchanges succeed
exactly when the last message is what was expected; threads use the pointers they have, and follow those in the objects they have. -/
theorem C73_may (s : St) (hl : s.msgs ≠ []) (t : Nat) :
    (∀ i a, (step s (.load t i a)).isSome ↔ s.ts t ≤ i ∧ i < s.msgs.length) ∧
    (∀ i c a, (step s (.fail t i c a)).isSome ↔ s.ts t ≤ i ∧ ∃ m, s.msgs[i]? = some m ∧ m.val ≠ c) ∧
    (∀ c n r a, (step s (.swap t c n r a)).isSome ↔ (s.msgs.getLast hl).val = c ∧ has s t c = true ∧ has s t n = true) ∧
    (∀ n r, (step s (.store t n r)).isSome ↔ has s t n = true) ∧
    (∀ o, (step s (.access t o)).isSome ↔ o ∈ s.held t) ∧
    (∀ o c, (step s (.follow t o c)).isSome ↔ o ∈ s.held t ∧ c ∈ s.refs.getD o []) ∧
    (∀ o c s' r, step s (.follow t o c) = some (s', r) → c ∈ s'.held t ∧ o ∈ s'.held t ∧ r = some (t, o)) := by
  refine ⟨?_, ?_, ?_, ?_, ?_, ?_, ?_⟩
  · intro i a
    simp only [step]
    by_cases hi : i < s.msgs.length
    · rw [List.getElem?_eq_getElem hi]; simp [hi]
    · rw [List.getElem?_eq_none (by omega)]; simp [hi]
  · intro i c a
    simp only [step]
    cases s.msgs[i]? with
    | none => simp
    | some m => simp
  · intro c n r a
    simp only [step, List.getLast?_eq_some_getLast hl]
    simp
  · intro n r; simp only [step]; cases has s t n <;> simp
  · intro o; simp only [step]; by_cases h : (s.held t).contains o <;> simp_all
  · intro o c; simp only [step]; by_cases h : (s.held t).contains o ∧ (s.refs.getD o []).contains c <;> simp_all
  · intro o c s' r h
    simp only [step] at h
    split at h
    · cases h; rename_i h; simp_all [upd]
    · cases h

/-- Coherence: no thread ever goes back in the modification order; a load leaves its thread at the message it returned, a write at the last one; who synchronises with a thread has seen what it saw. -/
theorem C73_coherence {s s' : St} {op : Op} {r} (hr : Reach s) (h : step s op = some (s', r)) :
    (∀ u, s.ts u ≤ s'.ts u) ∧ s.msgs.IsPrefix s'.msgs ∧
    (match op with
      | .load t i _ | .fail t i _ _ => s'.ts t = i
      | .swap t _ n _ _ | .store t n _ => s'.ts t + 1 = s'.msgs.length ∧ s'.msgs.getLast?.map Msg.val = some n
      | .sync t u | .give t u _ => s.ts t ≤ s'.ts u
      | _ => s'.ts = s.ts) := by
  have hts := reach_ts hr
  cases op with
  | make t deps =>
    simp only [step] at h
    split at h
    · cases h; exact ⟨fun _ => Nat.le_refl _, List.prefix_refl _, rfl⟩
    · cases h
  | load t i acq =>
    simp only [step] at h
    split at h
    · split at h
      · rename_i hi
        cases h
        refine ⟨fun u => ?_, List.prefix_refl _, by simp [receive, upd]⟩
        simp only [receive, upd]
        split
        · rename_i e; rw [e]; exact hi
        · exact Nat.le_refl _
      · cases h
    · cases h
  | swap t cur new rel acq =>
    simp only [step] at h
    split at h
    · split at h
      · cases h
        refine ⟨fun u => ?_, List.prefix_append _ _, by simp [receive, upd], by simp⟩
        simp only [receive, upd]
        split
        · exact Nat.le_of_lt (hts u)
        · exact Nat.le_refl _
      · cases h
    · cases h
  | fail t i cur acq =>
    simp only [step] at h
    split at h
    · split at h
      · rename_i hi
        cases h
        refine ⟨fun u => ?_, List.prefix_refl _, by simp [receive, upd]⟩
        simp only [receive, upd]
        split
        · rename_i e; rw [e]; exact hi.1
        · exact Nat.le_refl _
      · cases h
    · cases h
  | store t new rel =>
    simp only [step] at h
    split at h
    · cases h
      refine ⟨fun u => ?_, List.prefix_append _ _, by simp [upd], by simp⟩
      simp only [upd]
      split
      · exact Nat.le_of_lt (hts u)
      · exact Nat.le_refl _
    · cases h
  | access t o =>
    simp only [step] at h
    split at h
    · cases h; exact ⟨fun _ => Nat.le_refl _, List.prefix_refl _, rfl⟩
    · cases h
  | follow t o c =>
    simp only [step] at h
    split at h
    · cases h; exact ⟨fun _ => Nat.le_refl _, List.prefix_refl _, rfl⟩
    · cases h
  | sync t v =>
    cases h
    refine ⟨fun u => ?_, List.prefix_refl _, by simp [upd]; omega⟩
    simp only [upd]
    split
    · rename_i e; rw [e]; omega
    · exact Nat.le_refl _
  | give t v o =>
    simp only [step] at h
    split at h
    · cases h
      refine ⟨fun u => ?_, List.prefix_refl _, by simp [upd]; omega⟩
      simp only [upd]
      split
      · rename_i e; rw [e]; omega
      · exact Nat.le_refl _
    · cases h

/-- What an import can reach. -/
inductive IReach (acq : Bool) : Import → Prop where
  | new : IReach acq Import.new
  | step {s s' : Import} {op : IOp} {r} : IReach acq s → istep acq s op = some (s', r) → IReach acq s'

/-- The states of an import: unchecked, locked by somebody, validated. -/
inductive Stage (s : Import) : Prop where
  | unchecked : s.msgs = [(.unchecked, false)] → s.owner = none → s.written = false → (∀ t, s.known t = false) → Stage s
  | locked (t : Nat) : s.msgs = [(.unchecked, false), (.locked, false)] → s.owner = some t → s.written = false → (∀ t, s.known t = false) → Stage s
  | validated : s.msgs = [(.unchecked, false), (.locked, false), (.validated, true)] → s.owner = none → s.written = true → Stage s

/-- Imports go through their states in this order, once; the checker's result is written by the thread that has the lock, and nobody knows of it before.
No thread goes back, and one that wrote the state does not find an older one. -/
theorem C73_import_stages {acq : Bool} {s : Import} (h : IReach acq s) : Stage s ∧ (∀ t, s.ts t < s.msgs.length) ∧
    ∀ op s' r, istep acq s op = some (s', r) → (∀ u, s.ts u ≤ s'.ts u) ∧
      (match op with
        | .load t i => s'.ts t = i ∧ (r = some t ↔ (s.msgs[i]?).map Prod.fst = some .validated)
        | .lock t => s'.ts t + 1 = s'.msgs.length ∧ s'.owner = some t ∧ s.msgs.length = 1
        | .publish t => s'.ts t + 1 = s'.msgs.length ∧ s.owner = some t ∧ r = some t
        | .sync t u => s.ts t ≤ s'.ts u ∧ (s'.known u = true ↔ s.known u = true ∨ s.known t = true)) := by
  have inv : Stage s ∧ (∀ t, s.ts t < s.msgs.length) := by
    induction h with
    | new => exact ⟨.unchecked rfl rfl rfl (fun _ => rfl), by intro t; simp [Import.new]⟩
    | @step s s' op r _ hs ih =>
      obtain ⟨ih, hts⟩ := ih
      cases op with
      | load t i =>
        simp only [istep] at hs
        split at hs
        · rename_i m p hm
          split at hs
          · cases hs
            have hi := (List.getElem?_eq_some_iff.mp hm)
            refine ⟨?_, fun u => ?_⟩
            · cases ih with
              | unchecked a b c d =>
                refine .unchecked a b c fun u => ?_
                simp only [upd]
                have : p = false := by rw [a] at hm; match i, hm with | 0, hm => cases hm; rfl
                split <;> simp [d, this]
              | locked w a b c d =>
                refine .locked w a b c fun u => ?_
                simp only [upd]
                have : p = false := by rw [a] at hm; match i, hm with | 0, hm => cases hm; rfl | 1, hm => cases hm; rfl
                split <;> simp [d, this]
              | validated a b c => exact .validated a b c
            · simp only [upd]
              split
              · exact hi.1
              · exact hts u
          · cases hs
        · cases hs
      | lock t =>
        simp only [istep] at hs
        split at hs
        · rename_i p hl
          cases hs
          cases ih with
          | unchecked a b c d =>
            rw [a] at hl; cases hl
            refine ⟨.locked t (by simp [a, d]) rfl c fun u => ?_, fun u => ?_⟩
            · simp only [upd]; split <;> simp [d]
            · simp only [upd, a]
              have := hts u
              rw [a] at this
              simp at this ⊢
              split <;> omega
          | locked w a b c d => rw [a] at hl; cases hl
          | validated a b c => rw [a] at hl; cases hl
        · cases hs
      | publish t =>
        simp only [istep] at hs
        split at hs
        · rename_i ho
          cases hs
          cases ih with
          | unchecked a b c d => rw [b] at ho; cases ho
          | locked w a b c d =>
            refine ⟨.validated (by simp [a]) rfl rfl, fun u => ?_⟩
            simp only [upd, a]
            have := hts u
            rw [a] at this
            simp at this ⊢
            split <;> omega
          | validated a b c => rw [b] at ho; cases ho
        · cases hs
      | sync t u =>
        cases hs
        refine ⟨?_, fun w => ?_⟩
        · cases ih with
          | unchecked a b c d => exact .unchecked a b c fun w => by simp only [upd]; split <;> simp [d]
          | locked w a b c d => exact .locked w a b c fun w => by simp only [upd]; split <;> simp [d]
          | validated a b c => exact .validated a b c
        · simp only [upd]
          have := hts u; have := hts t; have := hts w
          split <;> omega
  refine ⟨inv.1, inv.2, ?_⟩
  obtain ⟨hst, hts⟩ := inv
  intro op s' r hs
  cases op with
  | load t i =>
    simp only [istep] at hs
    split at hs
    · rename_i m p hm
      split at hs
      · rename_i hi
        cases hs
        refine ⟨fun u => ?_, by simp [upd], ?_⟩
        · simp only [upd]
          split
          · rename_i e; rw [e]; exact hi
          · exact Nat.le_refl _
        · rw [hm]; simp
      · cases hs
    · cases hs
  | lock t =>
    simp only [istep] at hs
    split at hs
    · rename_i p hl
      cases hs
      refine ⟨fun u => ?_, by simp [upd], rfl, ?_⟩
      · simp only [upd]
        have := hts u
        split <;> omega
      · cases hst with
        | unchecked a b c d => rw [a]; rfl
        | locked w a b c d => rw [a] at hl; cases hl
        | validated a b c => rw [a] at hl; cases hl
    · cases hs
  | publish t =>
    simp only [istep] at hs
    split at hs
    · rename_i ho
      cases hs
      refine ⟨fun u => ?_, by simp [upd], ho, rfl⟩
      simp only [upd]
      have := hts u
      split <;> omega
    · cases hs
  | sync t u =>
    cases hs
    refine ⟨fun w => ?_, by simp [upd]; omega, by simp [upd]⟩
    simp only [upd]
    split
    · rename_i e; rw [e]; omega
    · exact Nat.le_refl _

/-- The import can always go on: the last state can be loaded; one that is unchecked can be locked; who has the lock can publish. -/
theorem C73_import_live {acq : Bool} {s : Import} (h : IReach acq s) (t : Nat) :
    (∀ i, s.ts t ≤ i → i < s.msgs.length → (istep acq s (.load t i)).isSome) ∧ (s.msgs.length = 1 → (istep acq s (.lock t)).isSome) ∧ (s.owner = some t → (istep acq s (.publish t)).isSome) := by
  obtain ⟨hst, hts, -⟩ := C73_import_stages h
  refine ⟨?_, ?_, ?_⟩
  · intro i h1 h2
    simp only [istep]
    rw [List.getElem?_eq_getElem h2]
    simp [h1]
  · intro h1
    cases hst with
    | unchecked a b c d => simp [istep, a]
    | locked w a b c d => rw [a] at h1; cases h1
    | validated a b c => rw [a] at h1; cases h1
  · intro h1
    simp [istep, h1]

/-- What the code does (the claims above are about these orders, and no others). -/
theorem C73_code : importCode = false ∧ (∀ t c n r a, byRegistry (.swap t c n r a) ↔ r = true ∧ a = true) ∧ (∀ t c n r a, byEdit (.swap t c n r a) ↔ r = true ∧ a = false) ∧
    (∀ t i a, (byGet (.load t i a) ↔ a = false) ∧ (byEdit (.load t i a) ↔ a = true) ∧ (byRegistry (.load t i a) ↔ a = true)) :=
  ⟨rfl, fun _ _ _ _ _ => Iff.rfl, fun _ _ _ _ _ => Iff.rfl, fun _ _ _ => ⟨Iff.rfl, Iff.rfl, Iff.rfl⟩⟩

example : ∃ s, IReach false s ∧ s.owner = some 3 ∧ s.msgs.length = 2 :=
  ⟨_, .step (op := .lock 3) .new rfl, rfl, rfl⟩
example : ∃ s, Reach s ∧ s.ts 1 = 0 ∧ s.msgs.length = 2 := ⟨_, .step (op := .store 0 none true) .new rfl, rfl, rfl⟩

end Verif.Props.Publish
