import Verif.Swap.Model
/-! Reference counting in `Verif.Swap.Model`. -/
namespace Verif.Swap
variable {V : Type}

/-- One handle on `p`. -/
def own (p : Option Nat) (a : Nat) : Nat := if p = some a then 1 else 0

def Pc.holds (a : Nat) : Pc V → Nat
  | .idle => 0
  | .loaded .. => 0
  | .copied _ _ cur => own cur a
  | .ready _ _ cur new kept => own new a + own (if kept then cur else none) a

def Pc.cur : Pc V → Option Nat
  | .idle => none
  | .loaded _ _ cur => cur
  | .copied _ _ cur => cur
  | .ready _ _ cur _ _ => cur

def total (a : Nat) (ts : List (Pc V)) : Nat := (ts.map (Pc.holds a)).sum

def cnt (c : Cfg V) (a : Nat) : Nat := match c.mem a with
  | none => 0
  | some o => o.strong

/-- The counters are `R`; memory in use has a positive counter. -/
def Bal (c : Cfg V) (R : Nat → Nat) : Prop := (∀ a, cnt c a = R a) ∧ ∀ a o, c.mem a = some o → 0 < o.strong

/-- Every counter is the number of handles. -/
def Inv (c : Cfg V) : Prop := Bal c fun a => own c.cell a + total a c.ts

@[simp] theorem own_none (a : Nat) : own none a = 0 := rfl

theorem own_some (b a : Nat) : own (some b) a = if b = a then 1 else 0 := by simp [own]

theorem own_le (p : Option Nat) (a : Nat) : own p a ≤ 1 := by unfold own; split <;> omega

theorem total_set {ts : List (Pc V)} {t : Nat} {p q : Pc V} (a : Nat) (h : ts[t]? = some p) :
    total a (ts.set t q) + p.holds a = total a ts + q.holds a := by
  induction ts generalizing t with
  | nil => simp at h
  | cons x xs ih =>
    cases t with
    | zero => simp at h; subst h; simp [total]; omega
    | succ t =>
      simp at h
      have := ih h
      simp only [total, List.set_cons_succ, List.map_cons, List.sum_cons] at *
      omega

theorem holds_le_total {ts : List (Pc V)} {t : Nat} {p : Pc V} (a : Nat) (h : ts[t]? = some p) : p.holds a ≤ total a ts := by
  induction ts generalizing t with
  | nil => simp at h
  | cons x xs ih =>
    cases t with
    | zero => simp at h; subst h; simp [total]
    | succ t =>
      simp at h
      have := ih h
      simp only [total, List.map_cons, List.sum_cons] at *
      omega

theorem holds_two_le {ts : List (Pc V)} {t u : Nat} {p q : Pc V} (a : Nat) (hne : t ≠ u) (h : ts[t]? = some p) (h' : ts[u]? = some q) :
    p.holds a + q.holds a ≤ total a ts := by
  induction ts generalizing t u with
  | nil => simp at h
  | cons x xs ih =>
    cases t with
    | zero =>
      cases u with
      | zero => exact absurd rfl hne
      | succ u =>
        simp at h h'; subst h
        have := holds_le_total a h'
        simp only [total, List.map_cons, List.sum_cons] at *
        omega
    | succ t =>
      cases u with
      | zero =>
        simp at h h'; subst h'
        have := holds_le_total a h
        simp only [total, List.map_cons, List.sum_cons] at *
        omega
      | succ u =>
        simp at h h'
        have := ih (by omega) h h'
        simp only [total, List.map_cons, List.sum_cons] at *
        omega

theorem Bal.live {c : Cfg V} {R : Nat → Nat} (h : Bal c R) {a : Nat} (ha : 0 < R a) : ∃ o, c.mem a = some o := by
  have := h.1 a
  unfold cnt at this
  cases hm : c.mem a with
  | none => rw [hm] at this; simp at this; omega
  | some o => exact ⟨o, rfl⟩

theorem Bal.zero {c : Cfg V} {R : Nat → Nat} (h : Bal c R) {a : Nat} (ha : c.mem a = none) : R a = 0 := by
  have := h.1 a
  unfold cnt at this
  rw [ha] at this
  exact this.symm

theorem Bal.congr {c : Cfg V} {R S : Nat → Nat} (h : Bal c R) (hs : ∀ a, R a = S a) : Bal c S := ⟨fun a => by rw [h.1, hs], h.2⟩

theorem bal_mem {c d : Cfg V} {R : Nat → Nat} (h : Bal c R) (hm : d.mem = c.mem) : Bal d R := by
  refine ⟨fun a => ?_, fun a o ho => h.2 a o (by rw [← hm]; exact ho)⟩
  have := h.1 a
  unfold cnt at *
  rw [hm]; exact this

/-- What remains in memory has the value it had. -/
def Shrinks (c d : Cfg V) : Prop := ∀ a o', d.mem a = some o' → ∃ o, c.mem a = some o ∧ o.val = o'.val

theorem Shrinks.refl (c : Cfg V) : Shrinks c c := fun _ o h => ⟨o, h, rfl⟩

theorem Shrinks.trans {c d e : Cfg V} (h : Shrinks c d) (h' : Shrinks d e) : Shrinks c e := fun a o ho => by
  obtain ⟨o1, h1, e1⟩ := h' a o ho
  obtain ⟨o2, h2, e2⟩ := h a o1 h1
  exact ⟨o2, h2, e2.trans e1⟩

theorem release_spec {c : Cfg V} {R : Nat → Nat} (h : Bal c R) (p : Option Nat) (hp : ∀ a, own p a ≤ R a) :
    ∃ d, release c p = some d ∧ d.cell = c.cell ∧ d.ts = c.ts ∧ Bal d (fun a => R a - own p a) ∧ Shrinks c d := by
  cases p with
  | none => exact ⟨c, rfl, rfl, rfl, h.congr (fun a => by simp), Shrinks.refl c⟩
  | some b =>
    have hb := hp b
    obtain ⟨o, ho⟩ := h.live (a := b) (by simp [own] at hb; omega)
    refine ⟨{ c with mem := upd c.mem b (if o.strong = 1 then none else some { o with strong := o.strong - 1 }) },
      by simp only [release, ho], rfl, rfl, ⟨fun a => ?_, fun a o' ho' => ?_⟩, fun a o' ho' => ?_⟩
    · have h1 := h.1 a
      have h2 := h.2 b o ho
      simp only [cnt, upd] at *
      by_cases hab : a = b
      · subst hab
        rw [ho] at h1
        simp only at h1
        have h3 : own (some a) a = 1 := by simp [own]
        rw [h3]
        by_cases h4 : o.strong = 1
        · simp [h4]; omega
        · simp [h4]; omega
      · simp only [hab, if_false, own_some, Ne.symm hab]
        simpa using h1
    · simp only [upd] at ho'
      split at ho'
      · split at ho'
        · cases ho'
        · have := h.2 b o ho
          cases ho'; simp; omega
      · exact h.2 a o' ho'
    · simp only [upd] at ho'
      split at ho'
      · rename_i hab; subst hab
        split at ho'
        · cases ho'
        · cases ho'; exact ⟨o, ho, rfl⟩
      · exact ⟨o', ho', rfl⟩

theorem put_bal {c : Cfg V} {R : Nat → Nat} (h : Bal c R) {a : Nat} (ha : c.mem a = none) (v : V) :
    Bal (put c a v) (fun b => R b + own (some a) b) := by
  refine ⟨fun b => ?_, fun b o ho => ?_⟩
  · have h1 := h.1 b
    have h0 := h.zero ha
    simp only [cnt, put, upd] at *
    by_cases hb : b = a
    · subst hb; simp [own, h0]
    · simp only [hb, if_false, own_some, Ne.symm hb]; simpa using h1
  · simp only [put, upd] at ho
    split at ho
    · cases ho; simp
    · exact h.2 b o ho

/-- `again` never touches released memory. -/
theorem again_spec {c : Cfg V} {R : Nat → Nat} (h : Bal c R) (t : Nat) (f : Fn V) (seen : List V) (cur new : Option Nat) (kept : Bool)
    (hp : ∀ a, own new a + own (if kept then cur else none) a ≤ R a) :
    ∃ d, again c t f seen cur new kept = some d ∧ d.cell = c.cell ∧ d.ts = c.ts.set t (.loaded f seen c.cell) ∧
      Bal d (fun a => R a - own new a - own (if kept then cur else none) a) ∧ Shrinks c d := by
  obtain ⟨d, h1, c1, t1, b1, s1⟩ := release_spec h new (fun a => by have := hp a; omega)
  obtain ⟨e, h2, c2, t2, b2, s2⟩ := release_spec b1 (if kept then cur else none) (fun a => by have := hp a; omega)
  refine ⟨setPc e t (.loaded f seen e.cell), ?_, ?_, ?_, ?_, s1.trans s2⟩
  · simp only [again, h1, h2, bind, Option.bind, pure]
  · simp [setPc, c2, c1]
  · simp [setPc, t2, t1, c2, c1]
  · exact bal_mem b2 rfl

def Act.actor : Act V → Nat
  | .start t _ => t
  | .copy t => t
  | .same t => t
  | .make t _ _ => t
  | .mutate t => t
  | .recheck t => t
  | .cas t => t

/-- Every step either leaves everything as it was, or is one of these. -/
inductive Moves (empty : V) (keep : Bool) (c : Cfg V) : Act V → Cfg V → Prop where
  | stay (a : Act V) (hc : ∀ t f seen cur, a = .copy t → c.ts[t]? ≠ some (.loaded f seen cur))
      (hr : ∀ t f seen cur new kept, a = .cas t → c.ts[t]? ≠ some (.ready f seen cur new kept)) : Moves empty keep c a c
  | start {t : Nat} {f : Fn V} (h : c.ts[t]? = some .idle) : Moves empty keep c (.start t f) (setPc c t (.loaded f [] c.cell))
  | copyNull {t : Nat} {f : Fn V} {seen : List V} (h : c.ts[t]? = some (.loaded f seen none)) :
      Moves empty keep c (.copy t) (setPc c t (.copied f (empty :: seen) none))
  | copy {t a : Nat} {f : Fn V} {seen : List V} {o : Obj V} {d : Cfg V} (h : c.ts[t]? = some (.loaded f seen (some a))) (ho : c.mem a = some o)
      (hd : d.cell = c.cell) (ht : d.ts = c.ts.set t (.copied f (o.val :: seen) (some a))) (hs : Shrinks c d) :
      Moves empty keep c (.copy t) d
  | same {t : Nat} {f : Fn V} {seen : List V} {cur : Option Nat} (h : c.ts[t]? = some (.copied f seen cur)) (hf : f seen = .same) :
      Moves empty keep c (.same t) (setPc c t (.ready f seen cur cur false))
  | null {t a : Nat} {early : Bool} {f : Fn V} {seen : List V} {cur : Option Nat} {d : Cfg V} (h : c.ts[t]? = some (.copied f seen cur)) (hf : f seen = .null)
      (hd : d.cell = c.cell) (ht : d.ts = c.ts.set t (.ready f seen cur none keep)) (hs : Shrinks c d) :
      Moves empty keep c (.make t a early) d
  | node {t a : Nat} {early : Bool} {f : Fn V} {seen : List V} {cur : Option Nat} {v : V} {d e : Cfg V}
      (h : c.ts[t]? = some (.copied f seen cur)) (hf : f seen = .node v)
      (hs : Shrinks c e) (hb : ∃ R : Nat → Nat, Bal e R ∧ ∀ b, own c.cell b + total b c.ts ≤ R b + own (if keep then none else cur) b) (he : e.mem a = none)
      (hv : ∃ o, d.mem a = some o ∧ o.val = v)
      (hm : ∀ b o', b ≠ a → d.mem b = some o' → ∃ o, e.mem b = some o ∧ o.val = o'.val)
      (hd : d.cell = c.cell) (ht : d.ts = c.ts.set t (.ready f seen cur (some a) keep)) :
      Moves empty keep c (.make t a early) d
  | mutate {t a : Nat} {f : Fn V} {seen : List V} {v : V} {o : Obj V} {d : Cfg V} (h : c.ts[t]? = some (.copied f seen (some a))) (hf : f seen = .node v)
      (hk : keep = false) (ho : c.mem a = some o) (h1 : o.strong = 1)
      (hm : ∀ b o', b ≠ a → d.mem b = some o' → c.mem b = some o')
      (hd : d.cell = c.cell) (ht : d.ts = c.ts.set t (.ready f seen (some a) (some a) false)) :
      Moves empty keep c (.mutate t) d
  | again {t : Nat} {a : Act V} {f : Fn V} {seen : List V} {cur new : Option Nat} {kept : Bool} {d : Cfg V}
      (ha : a = .recheck t ∨ a = .cas t) (h : c.ts[t]? = some (.ready f seen cur new kept)) (hne : c.cell ≠ cur) (hcn : a = .cas t → cur ≠ new)
      (hk : a = .recheck t → kept = true)
      (hd : d.cell = c.cell) (ht : d.ts = c.ts.set t (.loaded f seen c.cell)) (hs : Shrinks c d) :
      Moves empty keep c a d
  | unchanged {t : Nat} {f : Fn V} {seen : List V} {cur : Option Nat} {kept : Bool} {d : Cfg V}
      (h : c.ts[t]? = some (.ready f seen cur cur kept))
      (hd : d.cell = c.cell) (ht : d.ts = c.ts.set t .idle) (hs : Shrinks c d) :
      Moves empty keep c (.cas t) d
  | swap {t : Nat} {f : Fn V} {seen : List V} {cur new : Option Nat} {kept : Bool} {d : Cfg V}
      (h : c.ts[t]? = some (.ready f seen cur new kept)) (hne : cur ≠ new) (hc : c.cell = cur)
      (hd : d.cell = new) (ht : d.ts = c.ts.set t .idle) (hs : Shrinks c d) :
      Moves empty keep c (.cas t) d

theorem holds_ready (f : Fn V) (seen : List V) (cur new : Option Nat) (kept : Bool) (a : Nat) :
    (Pc.ready f seen cur new kept).holds a = own new a + own (if kept then cur else none) a := rfl

theorem holds_copied (f : Fn V) (seen : List V) (cur : Option Nat) (a : Nat) : (Pc.copied f seen cur).holds a = own cur a := rfl

/-- A step that is defined keeps the counters right, and is one of `Moves`; a step is undefined only when it copies through a pointer to released
memory. -/
theorem step_spec (empty : V) (keep : Bool) {c : Cfg V} (h : Inv c) (act : Act V) :
    (∃ d, step empty keep c act = some d ∧ Inv d ∧ Moves empty keep c act d) ∨
    (step empty keep c act = none ∧ ∃ t f seen a, act = .copy t ∧ c.ts[t]? = some (.loaded f seen (some a)) ∧ c.mem a = none) := by
  have stay : ∀ a : Act V, step empty keep c a = some c →
      (∀ t f seen cur, a = .copy t → c.ts[t]? ≠ some (.loaded f seen cur)) →
      (∀ t f seen cur new kept, a = .cas t → c.ts[t]? ≠ some (.ready f seen cur new kept)) →
      (∃ d, step empty keep c a = some d ∧ Inv d ∧ Moves empty keep c a d) ∨
      (step empty keep c a = none ∧ ∃ t f seen a', a = .copy t ∧ c.ts[t]? = some (.loaded f seen (some a')) ∧ c.mem a' = none) :=
    fun a ha hc hr => .inl ⟨c, ha, h, .stay a hc hr⟩
  cases act with
  | start t f =>
    cases ht : c.ts[t]? with
    | none => exact stay _ (by simp [step, ht]) (by rintro _ _ _ _ ⟨⟩ <;> simp [ht]) (by rintro _ _ _ _ _ _ ⟨⟩ <;> simp [ht])
    | some p =>
      cases p with
      | idle =>
        refine .inl ⟨setPc c t (.loaded f [] c.cell), by simp [step, ht], ?_, .start ht⟩
        refine (bal_mem h rfl).congr (fun a => ?_)
        have := total_set (q := .loaded f [] c.cell) a ht
        simp only [setPc, Pc.holds] at *; omega
      | loaded => exact stay _ (by simp [step, ht]) (by rintro _ _ _ _ ⟨⟩ <;> simp [ht]) (by rintro _ _ _ _ _ _ ⟨⟩ <;> simp [ht])
      | copied => exact stay _ (by simp [step, ht]) (by rintro _ _ _ _ ⟨⟩ <;> simp [ht]) (by rintro _ _ _ _ _ _ ⟨⟩ <;> simp [ht])
      | ready => exact stay _ (by simp [step, ht]) (by rintro _ _ _ _ ⟨⟩ <;> simp [ht]) (by rintro _ _ _ _ _ _ ⟨⟩ <;> simp [ht])
  | copy t =>
    cases ht : c.ts[t]? with
    | none => exact stay _ (by simp [step, ht]) (by rintro _ _ _ _ ⟨⟩ <;> simp [ht]) (by rintro _ _ _ _ _ _ ⟨⟩ <;> simp [ht])
    | some p =>
      cases p with
      | idle => exact stay _ (by simp [step, ht]) (by rintro _ _ _ _ ⟨⟩ <;> simp [ht]) (by rintro _ _ _ _ _ _ ⟨⟩ <;> simp [ht])
      | copied => exact stay _ (by simp [step, ht]) (by rintro _ _ _ _ ⟨⟩ <;> simp [ht]) (by rintro _ _ _ _ _ _ ⟨⟩ <;> simp [ht])
      | ready => exact stay _ (by simp [step, ht]) (by rintro _ _ _ _ ⟨⟩ <;> simp [ht]) (by rintro _ _ _ _ _ _ ⟨⟩ <;> simp [ht])
      | loaded f seen cur =>
        cases cur with
        | none =>
          refine .inl ⟨_, by simp only [step, ht], ?_, .copyNull ht⟩
          refine (bal_mem h rfl).congr (fun a => ?_)
          have := total_set (q := .copied f (empty :: seen) none) a ht
          simp only [setPc, Pc.holds, own_none] at *; omega
        | some b =>
          cases hm : c.mem b with
          | none => exact .inr ⟨by simp [step, ht, hm], t, f, seen, b, rfl, ht, hm⟩
          | some o =>
            refine .inl ⟨setPc { c with mem := upd c.mem b (some { o with strong := o.strong + 1 }) } t (.copied f (o.val :: seen) (some b)),
              by simp only [step, ht, hm], ?_, .copy ht hm rfl rfl ?_⟩
            · refine ⟨fun a => ?_, fun a o' ho' => ?_⟩
              · have h1 := h.1 a
                have := total_set (q := .copied f (o.val :: seen) (some b)) a ht
                simp only [setPc, Pc.holds, cnt, upd, own_some] at *
                by_cases hab : a = b
                · subst hab; rw [hm] at h1; simp at *; omega
                · simp only [hab, if_false, Ne.symm hab] at *; simp only [h1]; omega
              · simp only [setPc, upd] at ho'
                split at ho'
                · cases ho'; simp
                · exact h.2 a o' ho'
            · intro a o' ho'
              simp only [setPc, upd] at ho'
              split at ho'
              · rename_i hab; subst hab; cases ho'; exact ⟨o, hm, rfl⟩
              · exact ⟨o', ho', rfl⟩
  | same t =>
    cases ht : c.ts[t]? with
    | none => exact stay _ (by simp [step, ht]) (by rintro _ _ _ _ ⟨⟩ <;> simp [ht]) (by rintro _ _ _ _ _ _ ⟨⟩ <;> simp [ht])
    | some p =>
      cases p with
      | idle => exact stay _ (by simp [step, ht]) (by rintro _ _ _ _ ⟨⟩ <;> simp [ht]) (by rintro _ _ _ _ _ _ ⟨⟩ <;> simp [ht])
      | loaded => exact stay _ (by simp [step, ht]) (by rintro _ _ _ _ ⟨⟩ <;> simp [ht]) (by rintro _ _ _ _ _ _ ⟨⟩ <;> simp [ht])
      | ready => exact stay _ (by simp [step, ht]) (by rintro _ _ _ _ ⟨⟩ <;> simp [ht]) (by rintro _ _ _ _ _ _ ⟨⟩ <;> simp [ht])
      | copied f seen cur =>
        cases hf : f seen with
        | null => exact stay _ (by simp [step, ht, hf]) (by rintro _ _ _ _ ⟨⟩ <;> simp [ht]) (by rintro _ _ _ _ _ _ ⟨⟩ <;> simp [ht])
        | node v => exact stay _ (by simp [step, ht, hf]) (by rintro _ _ _ _ ⟨⟩ <;> simp [ht]) (by rintro _ _ _ _ _ _ ⟨⟩ <;> simp [ht])
        | same =>
          refine .inl ⟨_, by simp only [step, ht, hf], ?_, .same ht hf⟩
          refine (bal_mem h rfl).congr (fun a => ?_)
          have := total_set (q := .ready f seen cur cur false) a ht
          simp only [setPc, holds_ready, holds_copied] at *
          simp at this; omega
  | make t a early =>
    cases ht : c.ts[t]? with
    | none => exact stay _ (by simp [step, ht]) (by rintro _ _ _ _ ⟨⟩ <;> simp [ht]) (by rintro _ _ _ _ _ _ ⟨⟩ <;> simp [ht])
    | some p =>
      cases p with
      | idle => exact stay _ (by simp [step, ht]) (by rintro _ _ _ _ ⟨⟩ <;> simp [ht]) (by rintro _ _ _ _ _ _ ⟨⟩ <;> simp [ht])
      | loaded => exact stay _ (by simp [step, ht]) (by rintro _ _ _ _ ⟨⟩ <;> simp [ht]) (by rintro _ _ _ _ _ _ ⟨⟩ <;> simp [ht])
      | ready => exact stay _ (by simp [step, ht]) (by rintro _ _ _ _ ⟨⟩ <;> simp [ht]) (by rintro _ _ _ _ _ _ ⟨⟩ <;> simp [ht])
      | copied f seen cur =>
        have hle : ∀ b, own (if keep then none else cur) b ≤ own c.cell b + total b c.ts := fun b => by
          have := holds_le_total b ht
          cases keep <;> simp [holds_copied] at *
          omega
        have hk : ∀ b, own (if keep then none else cur) b + own (if keep then cur else none) b = own cur b := fun b => by
          cases keep <;> simp
        cases hf : f seen with
        | same => exact stay _ (by simp [step, ht, hf]) (by rintro _ _ _ _ ⟨⟩ <;> simp [ht]) (by rintro _ _ _ _ _ _ ⟨⟩ <;> simp [ht])
        | null =>
          obtain ⟨d, hd, hc, hts, hb, hs⟩ := release_spec h _ hle
          refine .inl ⟨setPc d t (.ready f seen cur none keep), by simp only [step, ht, hf, hd, bind, Option.bind, pure], ?_,
            .null ht hf hc (by simp [setPc, hts]) hs⟩
          refine (bal_mem hb rfl).congr (fun b => ?_)
          have h1 := total_set (q := .ready f seen cur none keep) b ht
          have h2 := hk b
          have h3 := hle b
          simp only [setPc, hc, hts, holds_ready, holds_copied, own_none] at *; omega
        | node v =>
          cases early with
          | true =>
            cases hm : c.mem a with
            | some o => exact stay _ (by simp [step, ht, hf, hm]) (by rintro _ _ _ _ ⟨⟩ <;> simp [ht]) (by rintro _ _ _ _ _ _ ⟨⟩ <;> simp [ht])
            | none =>
              have hb0 := put_bal h hm v
              obtain ⟨d, hd, hc, hts, hb, hs⟩ := release_spec hb0 (if keep then none else cur) (fun b => by have := hle b; omega)
              have hcur0 : own cur a = 0 := by
                have h1 := h.zero hm
                have h2 := holds_le_total a ht
                simp only [holds_copied] at h2; omega
              refine .inl ⟨setPc d t (.ready f seen cur (some a) keep), by simp [step, ht, hf, hm, hd], ?_,
                .node ht hf (Shrinks.refl c) ⟨_, h, fun b => by omega⟩ hm ?_ ?_ (by simp [setPc, hc, put]) (by simp [setPc, hts, put])⟩
              · refine (bal_mem hb rfl).congr (fun b => ?_)
                have h1 := total_set (q := .ready f seen cur (some a) keep) b ht
                have h2 := hk b
                have h3 := hle b
                simp only [setPc, hc, hts, holds_ready, holds_copied, put] at *; omega
              · obtain ⟨o, ho⟩ := hb.live (a := a) (by
                  have h2 := hk a
                  simp only [own_some, if_true]; omega)
                obtain ⟨o', ho', hv⟩ := hs a o ho
                simp [put, upd] at ho'
                subst ho'
                exact ⟨o, ho, hv.symm⟩
              · intro b o' hne hb'
                obtain ⟨o, ho, hv⟩ := hs b o' hb'
                simp only [put, upd, hne, if_false] at ho
                exact ⟨o, ho, hv⟩
          | false =>
            obtain ⟨e, he, hc, hts, hb, hs⟩ := release_spec h _ hle
            cases hm : e.mem a with
            | some o => exact stay _ (by simp [step, ht, hf, he, hm]) (by rintro _ _ _ _ ⟨⟩ <;> simp [ht]) (by rintro _ _ _ _ _ _ ⟨⟩ <;> simp [ht])
            | none =>
              have hb0 := put_bal hb hm v
              refine .inl ⟨setPc (put e a v) t (.ready f seen cur (some a) keep), by simp [step, ht, hf, he, hm], ?_,
                .node ht hf hs ⟨_, hb, fun b => ?_⟩ hm ⟨⟨1, v⟩, by simp [setPc, put, upd], rfl⟩ ?_ (by simp [setPc, hc, put]) (by simp [setPc, hts, put])⟩
              · refine (bal_mem hb0 rfl).congr (fun b => ?_)
                have h1 := total_set (q := .ready f seen cur (some a) keep) b ht
                have h2 := hk b
                have h3 := hle b
                simp only [setPc, hc, hts, holds_ready, holds_copied, put] at *; omega
              · have h2 := hk b; omega
              · intro b o' hne hb'
                simp only [setPc, put, upd, hne, if_false] at hb'
                exact ⟨o', hb', rfl⟩
  | mutate t =>
    cases ht : c.ts[t]? with
    | none => exact stay _ (by simp [step, ht]) (by rintro _ _ _ _ ⟨⟩ <;> simp [ht]) (by rintro _ _ _ _ _ _ ⟨⟩ <;> simp [ht])
    | some p =>
      cases p with
      | idle => exact stay _ (by simp [step, ht]) (by rintro _ _ _ _ ⟨⟩ <;> simp [ht]) (by rintro _ _ _ _ _ _ ⟨⟩ <;> simp [ht])
      | loaded => exact stay _ (by simp [step, ht]) (by rintro _ _ _ _ ⟨⟩ <;> simp [ht]) (by rintro _ _ _ _ _ _ ⟨⟩ <;> simp [ht])
      | ready => exact stay _ (by simp [step, ht]) (by rintro _ _ _ _ ⟨⟩ <;> simp [ht]) (by rintro _ _ _ _ _ _ ⟨⟩ <;> simp [ht])
      | copied f seen cur =>
        cases cur with
        | none => exact stay _ (by simp [step, ht]) (by rintro _ _ _ _ ⟨⟩ <;> simp [ht]) (by rintro _ _ _ _ _ _ ⟨⟩ <;> simp [ht])
        | some a =>
          cases hf : f seen with
          | same => exact stay _ (by simp [step, ht, hf]) (by rintro _ _ _ _ ⟨⟩ <;> simp [ht]) (by rintro _ _ _ _ _ _ ⟨⟩ <;> simp [ht])
          | null => exact stay _ (by simp [step, ht, hf]) (by rintro _ _ _ _ ⟨⟩ <;> simp [ht]) (by rintro _ _ _ _ _ _ ⟨⟩ <;> simp [ht])
          | node v =>
            cases hm : c.mem a with
            | none => exact stay _ (by simp [step, ht, hf, hm]) (by rintro _ _ _ _ ⟨⟩ <;> simp [ht]) (by rintro _ _ _ _ _ _ ⟨⟩ <;> simp [ht])
            | some o =>
              by_cases hk : keep = false ∧ o.strong = 1
              · refine .inl ⟨setPc { c with mem := upd c.mem a (some { o with val := v }) } t (.ready f seen (some a) (some a) false),
                  by simp only [step, ht, hf, hm, if_pos hk], ?_, .mutate ht hf hk.1 hm hk.2 ?_ rfl rfl⟩
                · refine ⟨fun b => ?_, fun b o' ho' => ?_⟩
                  · have h1 := h.1 b
                    have h2 := total_set (q := .ready f seen (some a) (some a) false) b ht
                    simp only [setPc, holds_ready, holds_copied, cnt, upd] at *
                    by_cases hab : b = a
                    · subst hab; rw [hm] at h1; simp at *; omega
                    · simp only [hab, if_false] at *; simp only [h1]; simp at h2; omega
                  · simp only [setPc, upd] at ho'
                    split at ho'
                    · rename_i hab; subst hab; cases ho'; exact h.2 b o hm
                    · exact h.2 b o' ho'
                · intro b o' hne hb
                  simp only [setPc, upd, hne, if_false] at hb; exact hb
              · exact stay _ (by simp only [step, ht, hf, hm, if_neg hk]) (by rintro _ _ _ _ ⟨⟩ <;> simp [ht]) (by rintro _ _ _ _ _ _ ⟨⟩ <;> simp [ht])
  | recheck t =>
    cases ht : c.ts[t]? with
    | none => exact stay _ (by simp [step, ht]) (by rintro _ _ _ _ ⟨⟩ <;> simp [ht]) (by rintro _ _ _ _ _ _ ⟨⟩ <;> simp [ht])
    | some p =>
      cases p with
      | idle => exact stay _ (by simp [step, ht]) (by rintro _ _ _ _ ⟨⟩ <;> simp [ht]) (by rintro _ _ _ _ _ _ ⟨⟩ <;> simp [ht])
      | loaded => exact stay _ (by simp [step, ht]) (by rintro _ _ _ _ ⟨⟩ <;> simp [ht]) (by rintro _ _ _ _ _ _ ⟨⟩ <;> simp [ht])
      | copied => exact stay _ (by simp [step, ht]) (by rintro _ _ _ _ ⟨⟩ <;> simp [ht]) (by rintro _ _ _ _ _ _ ⟨⟩ <;> simp [ht])
      | ready f seen cur new kept =>
        by_cases hk : kept = true ∧ c.cell ≠ cur
        · have hle : ∀ b, own new b + own (if kept then cur else none) b ≤ own c.cell b + total b c.ts := fun b => by
            have := holds_le_total b ht
            simp only [holds_ready] at this; omega
          obtain ⟨d, hd, hc, hts, hb, hs⟩ := again_spec h t f seen cur new kept hle
          refine .inl ⟨d, by simp only [step, ht, if_pos hk, hd], ?_, .again (.inl rfl) ht hk.2 (by simp) (fun _ => hk.1) hc hts hs⟩
          refine hb.congr (fun b => ?_)
          have h1 := total_set (q := .loaded f seen c.cell) b ht
          have h2 := hle b
          simp only [hc, hts, holds_ready] at *
          simp only [Pc.holds] at h1; omega
        · exact stay _ (by simp only [step, ht, if_neg hk]) (by rintro _ _ _ _ ⟨⟩ <;> simp [ht]) (by rintro _ _ _ _ _ _ ⟨⟩ <;> simp [ht])
  | cas t =>
    cases ht : c.ts[t]? with
    | none => exact stay _ (by simp [step, ht]) (by rintro _ _ _ _ ⟨⟩ <;> simp [ht]) (by rintro _ _ _ _ _ _ ⟨⟩ <;> simp [ht])
    | some p =>
      cases p with
      | idle => exact stay _ (by simp [step, ht]) (by rintro _ _ _ _ ⟨⟩ <;> simp [ht]) (by rintro _ _ _ _ _ _ ⟨⟩ <;> simp [ht])
      | loaded => exact stay _ (by simp [step, ht]) (by rintro _ _ _ _ ⟨⟩ <;> simp [ht]) (by rintro _ _ _ _ _ _ ⟨⟩ <;> simp [ht])
      | copied => exact stay _ (by simp [step, ht]) (by rintro _ _ _ _ ⟨⟩ <;> simp [ht]) (by rintro _ _ _ _ _ _ ⟨⟩ <;> simp [ht])
      | ready f seen cur new kept =>
        have hle : ∀ b, own new b + own (if kept then cur else none) b ≤ total b c.ts := fun b => by
          have := holds_le_total b ht
          simp only [holds_ready] at this; omega
        by_cases hcn : cur = new
        · subst hcn
          obtain ⟨d, hd, hc, hts, hb, hs⟩ := release_spec h cur (fun b => by have := hle b; omega)
          obtain ⟨e, he, hc', hts', hb', hs'⟩ := release_spec hb (if kept then cur else none) (fun b => by have := hle b; omega)
          refine .inl ⟨setPc e t .idle, by simp [step, ht, hd, he], ?_, .unchanged ht (by simp [setPc, hc', hc]) (by simp [setPc, hts', hts]) (hs.trans hs')⟩
          refine (bal_mem hb' rfl).congr (fun b => ?_)
          have h1 := total_set (q := .idle) b ht
          have h2 := hle b
          simp only [setPc, hc, hts, hc', hts', holds_ready] at *
          simp only [Pc.holds] at h1; omega
        · by_cases hcc : c.cell = cur
          · have hb0 : Bal { c with cell := new } (fun a => own c.cell a + total a c.ts) := bal_mem h rfl
            obtain ⟨d, hd, hc, hts, hb, hs⟩ := release_spec hb0 cur (fun b => by subst hcc; omega)
            obtain ⟨e, he, hc', hts', hb', hs'⟩ := release_spec hb (if kept then cur else none) (fun b => by have := hle b; subst hcc; omega)
            refine .inl ⟨setPc e t .idle, by simp [step, ht, hcn, hcc, hd, he], ?_, .swap ht hcn hcc (by simp [setPc, hc', hc]) (by simp [setPc, hts', hts]) (hs.trans hs')⟩
            refine (bal_mem hb' rfl).congr (fun b => ?_)
            have h1 := total_set (q := .idle) b ht
            have h2 := hle b
            subst hcc
            simp only [setPc, hc, hts, hc', hts', holds_ready] at *
            simp only [Pc.holds] at h1; omega
          · obtain ⟨d, hd, hc, hts, hb, hs⟩ := again_spec h t f seen cur new kept (fun b => by have := hle b; omega)
            refine .inl ⟨d, by simp only [step, ht, if_neg hcn, if_neg hcc, hd], ?_, .again (.inr rfl) ht hcc (fun _ => hcn) (by simp) hc hts hs⟩
            refine hb.congr (fun b => ?_)
            have h1 := total_set (q := .loaded f seen c.cell) b ht
            have h2 := hle b
            simp only [hc, hts, holds_ready] at *
            simp only [Pc.holds] at h1; omega

theorem inv_new (n : Nat) : Inv (Cfg.new n : Cfg V) := by
  refine ⟨fun a => ?_, fun a o ho => by simp [Cfg.new] at ho⟩
  have : ∀ n, total a (List.replicate n (.idle : Pc V)) = 0 := by
    intro n; induction n with
    | zero => rfl
    | succ n ih => simp [total, Pc.holds]
  simp [cnt, Cfg.new, this]

end Verif.Swap
