import Verif.Import.Model

/-! Property C40. -/
namespace Verif.Props.Import
open Verif.Import

/-- Symbols with value `v` that a thread has and that are not in the cell yet. -/
def held (v : Nat) : Pc → Nat
  | .have_ w => if w = v then 1 else 0
  | .locked w => if w = v then 1 else 0
  | _ => 0

/-- Whether the cell has a symbol with value `v`. -/
def inCell (v : Nat) : Option Nat → Nat
  | some w => if w = v then 1 else 0
  | none => 0

/-- Threads between the exchange and the write. -/
def lockedN : Pc → Nat
  | .locked _ => 1
  | _ => 0

def sumBy (g : Pc → Nat) (ts : List Pc) : Nat := (ts.map g).sum

theorem sumBy_set {g : Pc → Nat} {ts : List Pc} {t : Nat} {p q : Pc} (h : ts[t]? = some p) :
    sumBy g (ts.set t q) + g p = sumBy g ts + g q := by
  induction ts generalizing t with
  | nil => simp at h
  | cons x xs ih =>
    cases t with
    | zero => simp at h; subst h; simp [sumBy]; omega
    | succ t =>
      simp at h
      have := ih h
      simp only [sumBy, List.set_cons_succ, List.map_cons, List.sum_cons] at *
      omega

theorem sumBy_idle (g : Pc → Nat) (hg : g .idle = 0) (n : Nat) : sumBy g (List.replicate n .idle) = 0 := by
  induction n with
  | zero => rfl
  | succ n ih => simp only [sumBy, List.replicate_succ, List.map_cons, List.sum_cons] at *; omega

theorem le_sumBy {g : Pc → Nat} {ts : List Pc} {t : Nat} {p : Pc} (h : ts[t]? = some p) : g p ≤ sumBy g ts := by
  induction ts generalizing t with
  | nil => simp at h
  | cons x xs ih =>
    cases t with
    | zero => simp at h; subst h; simp [sumBy]
    | succ t =>
      simp at h
      have := ih h
      simp only [sumBy, List.map_cons, List.sum_cons] at *
      omega

theorem get_set {ts : List Pc} {t u : Nat} {p q r : Pc} (h : ts[t]? = some p) (hu : (ts.set t q)[u]? = some r) : (u = t ∧ r = q) ∨ (u ≠ t ∧ ts[u]? = some r) := by
  by_cases hut : u = t
  · subst hut
    have := (List.getElem?_eq_some_iff.mp h).1
    simp [this] at hu
    exact .inl ⟨rfl, hu.symm⟩
  · rw [List.getElem?_set_ne (Ne.symm hut)] at hu
    exact .inr ⟨hut, hu⟩

/-- What a thread's place tells. -/
def Place (c : Cfg) (t : Nat) : Pc → Prop
  | .have_ v => some v ∈ c.checks
  | .locked v => some v ∈ c.checks
  | .failed => none ∈ c.checks
  | .written => c.cell ≠ none ∧ c.knows t = true
  | .done (some v) => c.cell = some v
  | .done none => none ∈ c.checks
  | _ => True

structure Inv (acquire : Bool) (c : Cfg) : Prop where
  wins : sumBy lockedN c.ts + c.writes ≤ 1
  first : c.flag = .unchecked → sumBy lockedN c.ts + c.writes = 0
  cellW : c.cell = none ↔ c.writes = 0
  cellC : ∀ v, c.cell = some v → some v ∈ c.checks
  valid : c.flag = .validated → c.cell ≠ none ∧ c.msg = true
  invalid : c.flag = .invalidated → none ∈ c.checks
  place : ∀ t p, c.ts[t]? = some p → Place c t p
  outsV : ∀ v, some v ∈ c.outs → c.cell = some v
  outsN : none ∈ c.outs → none ∈ c.checks
  ledger : ∀ v, c.checks.count (some v) = sumBy (held v) c.ts + inCell v c.cell + c.dropped.count v
  race : acquire = true → c.raced = false

theorem inv_new (acquire : Bool) (n : Nat) : Inv acquire (Cfg.new n) where
  wins := by simp [Cfg.new, sumBy_idle lockedN rfl]
  first := by simp [Cfg.new, sumBy_idle lockedN rfl]
  cellW := by simp [Cfg.new]
  cellC := by simp [Cfg.new]
  valid := by simp [Cfg.new]
  invalid := by simp [Cfg.new]
  place := fun t p h => by
    simp [Cfg.new, List.getElem?_replicate] at h
    obtain ⟨_, rfl⟩ := h; trivial
  outsV := by simp [Cfg.new]
  outsN := by simp [Cfg.new]
  ledger := fun v => by simp [Cfg.new, sumBy_idle (held v) rfl, inCell]
  race := fun _ => rfl

/-- A step that touches neither the cell nor the checks keeps what the places of the other threads tell. -/
theorem place_other {c d : Cfg} {t u : Nat} {p q r : Pc} (h : ∀ t p, c.ts[t]? = some p → Place c t p) (ht : c.ts[t]? = some p) (hd : d.ts = c.ts.set t q)
    (hcell : ∀ v, c.cell = some v → d.cell = some v) (hch : ∀ x ∈ c.checks, x ∈ d.checks) (hk : ∀ u, c.knows u = true → d.knows u = true)
    (hq : Place d t q) (hu : d.ts[u]? = some r) : Place d u r := by
  rw [hd] at hu
  rcases get_set ht hu with ⟨rfl, rfl⟩ | ⟨_, hu⟩
  · exact hq
  · have := h u r hu
    cases r with
    | idle => trivial
    | looping => trivial
    | checking => trivial
    | have_ v => exact hch _ this
    | failed => exact hch _ this
    | locked v => exact hch _ this
    | written =>
      obtain ⟨h1, h2⟩ := this
      refine ⟨?_, hk u h2⟩
      cases hc : c.cell with
      | none => exact absurd hc h1
      | some v => rw [hcell v hc]; simp
    | done x =>
      cases x with
      | none => exact hch _ this
      | some v => exact hcell v this

theorem step_inv {acquire : Bool} {c : Cfg} (h : Inv acquire c) (a : Act) : ∃ d, step acquire c a = some d ∧ Inv acquire d := by
  have stay : ∀ a, step acquire c a = some c → ∃ d, step acquire c a = some d ∧ Inv acquire d := fun a ha => ⟨c, ha, h⟩
  cases a with
  | call t =>
    cases ht : c.ts[t]? with
    | none => exact stay _ (by simp [step, Act.thread, ht])
    | some p =>
      cases p with
      | idle =>
        refine ⟨setPc c t .looping, by simp [step, Act.thread, ht], ?_⟩
        have s1 := sumBy_set (g := lockedN) (q := .looping) ht
        simp only [lockedN] at s1
        exact {
          wins := by have := h.wins; simp only [setPc]; omega
          first := fun hf => by have := h.first hf; simp only [setPc]; omega
          cellW := h.cellW, cellC := h.cellC, valid := h.valid, invalid := h.invalid
          place := fun u r hu => place_other (q := .looping) h.place ht rfl (fun _ h => h) (fun _ h => h) (fun _ h => h) trivial hu
          outsV := h.outsV, outsN := h.outsN
          ledger := fun v => by
            have s2 := sumBy_set (g := held v) (q := .looping) ht
            have := h.ledger v
            simp only [held, setPc] at *; omega
          race := h.race }
      | _ => exact stay _ (by simp [step, Act.thread, ht])
  | load t =>
    cases ht : c.ts[t]? with
    | none => exact stay _ (by simp [step, Act.thread, ht])
    | some p =>
      cases p with
      | looping =>
        -- the load itself
        obtain ⟨e, he⟩ : ∃ e, e = if (acquire && c.msg) = true then { c with knows := upd c.knows t true } else c := ⟨_, rfl⟩
        have hk : ∀ u, c.knows u = true → e.knows u = true := fun u hu => by
          subst he; split
          · simp only [upd]; split
            · rfl
            · exact hu
          · exact hu
        have hts : e.ts = c.ts := by subst he; split <;> rfl
        have hflag : e.flag = c.flag := by subst he; split <;> rfl
        have hcell : e.cell = c.cell := by subst he; split <;> rfl
        have hmsg : e.msg = c.msg := by subst he; split <;> rfl
        have hchecks : e.checks = c.checks := by subst he; split <;> rfl
        have houts : e.outs = c.outs := by subst he; split <;> rfl
        have hwrites : e.writes = c.writes := by subst he; split <;> rfl
        have hdropped : e.dropped = c.dropped := by subst he; split <;> rfl
        have hraced : e.raced = c.raced := by subst he; split <;> rfl
        have hkt : acquire = true → c.msg = true → e.knows t = true := fun h1 h2 => by
          subst he; simp [h1, h2, upd]
        have hi : Inv acquire e := by
          refine ⟨by rw [hts, hwrites]; exact h.wins, by rw [hts, hwrites, hflag]; exact h.first, by rw [hcell, hwrites]; exact h.cellW,
            by rw [hcell, hchecks]; exact h.cellC, by rw [hflag, hcell, hmsg]; exact h.valid, by rw [hflag, hchecks]; exact h.invalid, ?_,
            by rw [houts, hcell]; exact h.outsV, by rw [houts, hchecks]; exact h.outsN, by rw [hchecks, hts, hcell, hdropped]; exact h.ledger, by rw [hraced]; exact h.race⟩
          intro u r hu
          exact place_other (c := c) (d := e) (q := .looping) h.place ht (by
              rw [hts]
              have := (List.getElem?_eq_some_iff.mp ht)
              obtain ⟨h1, h2⟩ := this
              rw [← h2]; exact (List.set_getElem_self h1).symm) (by rw [hcell]; exact fun _ h => h) (by rw [hchecks]; exact fun _ h => h) hk trivial hu
        have ht' : e.ts[t]? = some .looping := by rw [hts]; exact ht
        have hstep : step acquire c (.load t) = match e.flag with
            | .unchecked => some (setPc e t .checking)
            | .validated => readCell e t
            | .invalidated => some { setPc e t (.done none) with outs := e.outs ++ [none] }
            | .locked => some e := by
          subst he; simp only [step, Act.thread, ht]; rfl
        cases hf : e.flag with
        | unchecked =>
          refine ⟨setPc e t .checking, by rw [hstep, hf], ?_⟩
          have s1 := sumBy_set (g := lockedN) (q := .checking) ht'
          simp only [lockedN] at s1
          exact {
            wins := by have := hi.wins; simp only [setPc]; omega
            first := fun hf => by have := hi.first hf; simp only [setPc]; omega
            cellW := hi.cellW, cellC := hi.cellC, valid := hi.valid, invalid := hi.invalid
            place := fun u r hu => place_other (q := .checking) hi.place ht' rfl (fun _ h => h) (fun _ h => h) (fun _ h => h) trivial hu
            outsV := hi.outsV, outsN := hi.outsN
            ledger := fun v => by
              have s2 := sumBy_set (g := held v) (q := .checking) ht'
              have := hi.ledger v
              simp only [held, setPc] at *; omega
            race := hi.race }
        | validated =>
          obtain ⟨hv, hm⟩ := hi.valid hf
          cases hc : e.cell with
          | none => exact absurd hc hv
          | some v =>
            refine ⟨{ setPc e t (.done (some v)) with outs := e.outs ++ [some v], raced := e.raced || !e.knows t }, by rw [hstep, hf]; simp [readCell, hc], ?_⟩
            have s1 := sumBy_set (g := lockedN) (q := .done (some v)) ht'
            simp only [lockedN] at s1
            exact {
              wins := by have := hi.wins; simp only [setPc]; omega
              first := fun hf => by have := hi.first hf; simp only [setPc]; omega
              cellW := hi.cellW, cellC := hi.cellC, valid := hi.valid, invalid := hi.invalid
              place := fun u r hu => place_other (q := .done (some v)) hi.place ht' rfl (fun _ h => h) (fun _ h => h) (fun _ h => h) hc hu
              outsV := fun w hw => by
                rcases List.mem_append.mp hw with hw | hw
                · exact hi.outsV w hw
                · simp at hw; subst hw; exact hc
              outsN := fun hw => by
                rcases List.mem_append.mp hw with hw | hw
                · exact hi.outsN hw
                · simp at hw
              ledger := fun w => by
                have s2 := sumBy_set (g := held w) (q := .done (some v)) ht'
                have := hi.ledger w
                simp only [held, setPc] at *; omega
              race := fun ha => by
                have h1 := hi.race ha
                have h2 := hkt ha (by rw [← hmsg]; exact hm)
                simp [h1, h2] }
        | invalidated =>
          refine ⟨{ setPc e t (.done none) with outs := e.outs ++ [none] }, by rw [hstep, hf], ?_⟩
          have hn := hi.invalid hf
          have s1 := sumBy_set (g := lockedN) (q := .done none) ht'
          simp only [lockedN] at s1
          exact {
            wins := by have := hi.wins; simp only [setPc]; omega
            first := fun hf => by have := hi.first hf; simp only [setPc]; omega
            cellW := hi.cellW, cellC := hi.cellC, valid := hi.valid, invalid := hi.invalid
            place := fun u r hu => place_other (q := .done none) hi.place ht' rfl (fun _ h => h) (fun _ h => h) (fun _ h => h) hn hu
            outsV := fun w hw => by
              rcases List.mem_append.mp hw with hw | hw
              · exact hi.outsV w hw
              · simp at hw
            outsN := fun _ => hn
            ledger := fun w => by
              have s2 := sumBy_set (g := held w) (q := .done none) ht'
              have := hi.ledger w
              simp only [held, setPc] at *; omega
            race := hi.race }
        | locked => exact ⟨e, by rw [hstep, hf], hi⟩
      | _ => exact stay _ (by simp [step, Act.thread, ht])
  | check t r =>
    cases ht : c.ts[t]? with
    | none => exact stay _ (by simp [step, Act.thread, ht])
    | some p =>
      cases p with
      | checking =>
        cases r with
        | some v =>
          refine ⟨{ setPc c t (.have_ v) with checks := c.checks ++ [some v] }, by simp [step, Act.thread, ht], ?_⟩
          have s1 := sumBy_set (g := lockedN) (q := .have_ v) ht
          simp only [lockedN] at s1
          exact {
            wins := by have := h.wins; simp only [setPc]; omega
            first := fun hf => by have := h.first hf; simp only [setPc]; omega
            cellW := h.cellW
            cellC := fun w hw => List.mem_append_left _ (h.cellC w hw)
            valid := h.valid
            invalid := fun hf => List.mem_append_left _ (h.invalid hf)
            place := fun u r hu => place_other (q := .have_ v) h.place ht rfl (fun _ h => h) (fun _ h => List.mem_append_left _ h) (fun _ h => h) (by simp [Place]) hu
            outsV := h.outsV
            outsN := fun hw => List.mem_append_left _ (h.outsN hw)
            ledger := fun w => by
              have s2 := sumBy_set (g := held w) (q := .have_ v) ht
              have h1 := h.ledger w
              simp only [held, setPc, List.count_append] at *
              by_cases hvw : v = w
              · subst hvw; simp at *; omega
              · simp [hvw] at *; omega
            race := h.race }
        | none =>
          refine ⟨{ setPc c t .failed with checks := c.checks ++ [none] }, by simp [step, Act.thread, ht], ?_⟩
          have s1 := sumBy_set (g := lockedN) (q := .failed) ht
          simp only [lockedN] at s1
          exact {
            wins := by have := h.wins; simp only [setPc]; omega
            first := fun hf => by have := h.first hf; simp only [setPc]; omega
            cellW := h.cellW
            cellC := fun w hw => List.mem_append_left _ (h.cellC w hw)
            valid := h.valid
            invalid := fun hf => List.mem_append_left _ (h.invalid hf)
            place := fun u r hu => place_other (q := .failed) h.place ht rfl (fun _ h => h) (fun _ h => List.mem_append_left _ h) (fun _ h => h) (by simp [Place]) hu
            outsV := h.outsV
            outsN := fun hw => List.mem_append_left _ (h.outsN hw)
            ledger := fun w => by
              have s2 := sumBy_set (g := held w) (q := .failed) ht
              have h1 := h.ledger w
              simp only [held, setPc, List.count_append] at *
              simp at *; omega
            race := h.race }
      | _ => exact stay _ (by cases r <;> simp [step, Act.thread, ht])
  | invalidate t =>
    cases ht : c.ts[t]? with
    | none => exact stay _ (by simp [step, Act.thread, ht])
    | some p =>
      cases p with
      | failed =>
        refine ⟨{ setPc c t (.done none) with flag := .invalidated, msg := false, outs := c.outs ++ [none] }, by simp [step, Act.thread, ht], ?_⟩
        have hn : none ∈ c.checks := h.place t _ ht
        have s1 := sumBy_set (g := lockedN) (q := .done none) ht
        simp only [lockedN] at s1
        exact {
          wins := by have := h.wins; simp only [setPc]; omega
          first := by simp
          cellW := h.cellW, cellC := h.cellC
          valid := by simp
          invalid := fun _ => hn
          place := fun u r hu => place_other (q := .done none) h.place ht rfl (fun _ h => h) (fun _ h => h) (fun _ h => h) hn hu
          outsV := fun w hw => by
            rcases List.mem_append.mp hw with hw | hw
            · exact h.outsV w hw
            · simp at hw
          outsN := fun _ => hn
          ledger := fun w => by
            have s2 := sumBy_set (g := held w) (q := .done none) ht
            have := h.ledger w
            simp only [held, setPc] at *; omega
          race := h.race }
      | _ => exact stay _ (by simp [step, Act.thread, ht])
  | cas t spurious =>
    cases ht : c.ts[t]? with
    | none => exact stay _ (by simp [step, Act.thread, ht])
    | some p =>
      cases p with
      | have_ v =>
        have hv : some v ∈ c.checks := h.place t _ ht
        by_cases hc : c.flag = .unchecked ∧ spurious = false
        · refine ⟨{ setPc c t (.locked v) with flag := .locked }, by simp only [step, Act.thread, ht, if_pos hc], ?_⟩
          have s1 := sumBy_set (g := lockedN) (q := .locked v) ht
          simp only [lockedN] at s1
          have h0 := h.first hc.1
          exact {
            wins := by simp only [setPc]; omega
            first := by simp
            cellW := h.cellW, cellC := h.cellC
            valid := by simp
            invalid := by simp
            place := fun u r hu => place_other (q := .locked v) h.place ht rfl (fun _ h => h) (fun _ h => h) (fun _ h => h) hv hu
            outsV := h.outsV, outsN := h.outsN
            ledger := fun w => by
              have s2 := sumBy_set (g := held w) (q := .locked v) ht
              have := h.ledger w
              simp only [held, setPc] at *; omega
            race := h.race }
        · refine ⟨{ setPc c t .looping with dropped := c.dropped ++ [v] }, by simp only [step, Act.thread, ht, if_neg hc], ?_⟩
          have s1 := sumBy_set (g := lockedN) (q := .looping) ht
          simp only [lockedN] at s1
          exact {
            wins := by have := h.wins; simp only [setPc]; omega
            first := fun hf => by have := h.first hf; simp only [setPc]; omega
            cellW := h.cellW, cellC := h.cellC, valid := h.valid, invalid := h.invalid
            place := fun u r hu => place_other (q := .looping) h.place ht rfl (fun _ h => h) (fun _ h => h) (fun _ h => h) trivial hu
            outsV := h.outsV, outsN := h.outsN
            ledger := fun w => by
              have s2 := sumBy_set (g := held w) (q := .looping) ht
              have h1 := h.ledger w
              simp only [held, setPc, List.count_append] at *
              by_cases hvw : v = w
              · subst hvw; simp at *; omega
              · simp [hvw] at *; omega
            race := h.race }
      | _ => exact stay _ (by simp [step, Act.thread, ht])
  | write t =>
    cases ht : c.ts[t]? with
    | none => exact stay _ (by simp [step, Act.thread, ht])
    | some p =>
      cases p with
      | locked v =>
        refine ⟨{ setPc c t .written with cell := some v, writes := c.writes + 1, knows := upd c.knows t true }, by simp [step, Act.thread, ht], ?_⟩
        have hv : some v ∈ c.checks := h.place t _ ht
        have s1 := sumBy_set (g := lockedN) (q := .written) ht
        have s3 := le_sumBy (g := lockedN) ht
        simp only [lockedN] at s1 s3
        have hw := h.wins
        have hw0 : c.writes = 0 := by omega
        have hcn := h.cellW.mpr hw0
        have hout : ∀ w, some w ∉ c.outs := fun w hw => by have := h.outsV w hw; rw [hcn] at this; cases this
        exact {
          wins := by simp only [setPc]; omega
          first := fun hf => by have := h.first hf; omega
          cellW := by simp
          cellC := fun w hw => by simp at hw; subst hw; exact hv
          valid := fun hf => by have := (h.valid hf).1; exact absurd hcn this
          invalid := h.invalid
          place := fun u r hu => place_other (q := .written) h.place ht rfl (fun w hw => by rw [hcn] at hw; cases hw) (fun _ h => h)
            (fun u hu => by simp only [upd]; split <;> simp_all) (by simp [Place, upd]) hu
          outsV := fun w hw => absurd hw (hout w)
          outsN := h.outsN
          ledger := fun w => by
            have s2 := sumBy_set (g := held w) (q := .written) ht
            have h1 := h.ledger w
            simp only [hcn, inCell] at h1
            simp only [held, setPc, inCell] at *
            by_cases hvw : v = w
            · subst hvw; simp at *; omega
            · simp [hvw] at *; omega
          race := h.race }
      | _ => exact stay _ (by simp [step, Act.thread, ht])
  | publish t =>
    cases ht : c.ts[t]? with
    | none => exact stay _ (by simp [step, Act.thread, ht])
    | some p =>
      cases p with
      | written =>
        obtain ⟨h1, hk⟩ : c.cell ≠ none ∧ c.knows t = true := h.place t _ ht
        cases hc : c.cell with
        | none => exact absurd hc h1
        | some v =>
          refine ⟨{ setPc { c with flag := .validated, msg := c.knows t } t (.done (some v)) with outs := c.outs ++ [some v], raced := c.raced || !c.knows t },
            by simp [step, Act.thread, ht, readCell, hc], ?_⟩
          have s1 := sumBy_set (g := lockedN) (q := .done (some v)) ht
          simp only [lockedN] at s1
          exact {
            wins := by have := h.wins; simp only [setPc]; omega
            first := by simp [setPc]
            cellW := h.cellW, cellC := h.cellC
            valid := fun _ => ⟨h1, hk⟩
            invalid := by simp [setPc]
            place := fun u r hu => place_other (q := .done (some v)) h.place ht rfl (fun _ h => h) (fun _ h => h) (fun _ h => h) hc hu
            outsV := fun w hw => by
              rcases List.mem_append.mp hw with hw | hw
              · exact h.outsV w hw
              · simp at hw; subst hw; exact hc
            outsN := fun hw => by
              rcases List.mem_append.mp hw with hw | hw
              · exact h.outsN hw
              · simp at hw
            ledger := fun w => by
              have s2 := sumBy_set (g := held w) (q := .done (some v)) ht
              have := h.ledger w
              simp only [held, setPc] at *; omega
            race := fun ha => by have := h.race ha; simp [this, hk] }
      | _ => exact stay _ (by simp [step, Act.thread, ht])
  | leave t =>
    cases ht : c.ts[t]? with
    | none => exact stay _ (by simp [step, Act.thread, ht])
    | some p =>
      cases p with
      | done x =>
        refine ⟨setPc c t .idle, by simp [step, Act.thread, ht], ?_⟩
        have s1 := sumBy_set (g := lockedN) (q := .idle) ht
        simp only [lockedN] at s1
        exact {
          wins := by have := h.wins; simp only [setPc]; omega
          first := fun hf => by have := h.first hf; simp only [setPc]; omega
          cellW := h.cellW, cellC := h.cellC, valid := h.valid, invalid := h.invalid
          place := fun u r hu => place_other (q := .idle) h.place ht rfl (fun _ h => h) (fun _ h => h) (fun _ h => h) trivial hu
          outsV := h.outsV, outsN := h.outsN
          ledger := fun v => by
            have s2 := sumBy_set (g := held v) (q := .idle) ht
            have := h.ledger v
            simp only [held, setPc] at *; omega
          race := h.race }
      | _ => exact stay _ (by simp [step, Act.thread, ht])

theorem run_inv {acquire : Bool} (as : List Act) {c : Cfg} (h : Inv acquire c) : ∃ d, run acquire c as = some d ∧ Inv acquire d := by
  induction as generalizing c with
  | nil => exact ⟨c, rfl, h⟩
  | cons a as ih =>
    obtain ⟨d, hd, hi⟩ := step_inv h a
    obtain ⟨e, he, hj⟩ := ih hi
    exact ⟨e, by simp [run, hd, he], hj⟩

/-! ### C40 -/

/-- **C40** (every number of threads, every interleaving, every outcome of every call of the checker, spurious failures of the exchange, whatever the orderings):
the code never reads the cell before it was written (`run` is defined); the cell is written at most once; `Ok` is returned only with the symbol of a check that
succeeded, the same symbol for every caller; `Err` is returned only after a check that failed. -/
theorem C40_checked_once (acquire : Bool) (n : Nat) (as : List Act) :
    ∃ c, run acquire (Cfg.new n) as = some c ∧ c.writes ≤ 1 ∧ (∀ v, some v ∈ c.outs → some v ∈ c.checks) ∧
      (∀ v w, some v ∈ c.outs → some w ∈ c.outs → v = w) ∧ (none ∈ c.outs → none ∈ c.checks) := by
  obtain ⟨c, hc, hi⟩ := run_inv as (inv_new acquire n)
  refine ⟨c, hc, by have := hi.wins; omega, fun v hv => hi.cellC v (hi.outsV v hv), fun v w hv hw => ?_, hi.outsN⟩
  have h1 := hi.outsV v hv
  have h2 := hi.outsV w hw
  rw [h1] at h2
  exact Option.some.inj h2

/-- The checks so far, a prefix of the checks later. -/
theorem checks_step {acquire : Bool} {c d : Cfg} {a : Act} (h : step acquire c a = some d) : ∀ x ∈ c.checks, x ∈ d.checks := by
  intro x hx
  revert h
  unfold step
  split
  all_goals first
    | (intro h; cases h; exact hx)
    | skip
  · intro h
    dsimp only at h
    split at h
    · cases h; split <;> exact hx
    · unfold readCell at h
      split at h
      · cases h
      · cases h; simp only [setPc]; split <;> exact hx
    · cases h; simp only [setPc]; split <;> exact hx
    · cases h; split <;> exact hx
  · split <;> (intro h; cases h; simp [hx])
  · split <;> (intro h; cases h; exact hx)
  · unfold readCell
    split
    · intro h; cases h
    · intro h; cases h; exact hx

theorem checks_run {acquire : Bool} (as : List Act) {c d : Cfg} (h : run acquire c as = some d) : ∀ x ∈ c.checks, x ∈ d.checks := by
  induction as generalizing c with
  | nil => cases h; exact fun _ hx => hx
  | cons a as ih =>
    simp only [run] at h
    cases hs : step acquire c a with
    | none => rw [hs] at h; cases h
    | some e =>
      rw [hs] at h
      exact fun x hx => ih h x (checks_step hs x hx)

theorem step_flag {acquire : Bool} {c d : Cfg} {a : Act} (hi : Inv acquire c) (h : step acquire c a = some d) (hf : c.flag = .validated) :
    d.flag = .validated ∨ none ∈ c.checks := by
  revert h
  unfold step
  split
  all_goals first
    | (intro h; cases h; exact .inl hf)
    | skip
  · intro h
    dsimp only at h
    split at h
    · cases h; left; simp only [setPc]; split <;> exact hf
    · unfold readCell at h
      split at h
      · cases h
      · cases h; left; simp only [setPc]; split <;> exact hf
    · cases h; left; simp only [setPc]; split <;> exact hf
    · cases h; left; split <;> exact hf
  · split <;> (intro h; cases h; exact .inl hf)
  · rename_i t ht
    intro _; exact .inr (hi.place t _ ht)
  · rename_i t sp v ht
    rw [if_neg (by simp [hf])]
    intro h; cases h; exact .inl hf
  · unfold readCell
    split
    · intro h; cases h
    · intro h; cases h; exact .inl rfl

/-- **C40** (stability): if no check of the history fails (for instance because the checker always gives the same answer, as the one written by
`#[stabby::import]` does), then once validated the import stays validated, whatever is called later. -/
theorem C40_stays_validated (acquire : Bool) (n : Nat) (as bs : List Act) (c d : Cfg) (hc : run acquire (Cfg.new n) as = some c) (hd : run acquire c bs = some d)
    (hok : none ∉ d.checks) (hv : c.flag = .validated) : d.flag = .validated := by
  obtain ⟨c', hc', hi⟩ := run_inv as (inv_new acquire n)
  rw [hc] at hc'; cases hc'
  clear hc
  induction bs generalizing c with
  | nil => cases hd; exact hv
  | cons b bs ih =>
    simp only [run] at hd
    cases hs : step acquire c b with
    | none => rw [hs] at hd; cases hd
    | some e =>
      rw [hs] at hd
      obtain ⟨e', he', hie⟩ := step_inv hi b
      rw [hs] at he'; cases he'
      have hne : none ∉ c.checks := fun h => hok (checks_run bs hd _ (checks_step hs _ h))
      exact ih e hd ((step_flag hi hs hv).resolve_right hne) hie

/-- **C40** (every caller is told the outcome): if every check gives the same answer — the symbol `v`, or a failure — then that is what every call returns. -/
theorem C40_same_answer (acquire : Bool) (n : Nat) (as : List Act) (c : Cfg) (hc : run acquire (Cfg.new n) as = some c) (r : Option Nat) (hr : ∀ x ∈ c.checks, x = r) :
    ∀ x ∈ c.outs, x = r := by
  obtain ⟨c', hc', hi⟩ := run_inv as (inv_new acquire n)
  rw [hc] at hc'; cases hc'
  intro x hx
  cases x with
  | none => exact hr _ (hi.outsN hx)
  | some v => exact hr _ (hi.cellC v (hi.outsV v hx))

/-- **C40** (no symbol is leaked or dropped twice): if no check fails, once every call has returned, dropping the import is defined, and each symbol the checker
ever returned has been dropped exactly once. -/
theorem C40_dropped_once (acquire : Bool) (n : Nat) (as : List Act) (c : Cfg) (hc : run acquire (Cfg.new n) as = some c) (hok : none ∉ c.checks)
    (hq : ∀ p ∈ c.ts, p = .idle) : ∃ d, drop c = some d ∧ ∀ v, d.dropped.count v = c.checks.count (some v) := by
  obtain ⟨c', hc', hi⟩ := run_inv as (inv_new acquire n)
  rw [hc] at hc'; cases hc'
  have hz : ∀ g : Pc → Nat, g .idle = 0 → sumBy g c.ts = 0 := by
    intro g hg
    have : ∀ ts : List Pc, (∀ p ∈ ts, p = .idle) → sumBy g ts = 0 := by
      intro ts hts
      induction ts with
      | nil => rfl
      | cons p ps ih =>
        have h1 := hts p (by simp)
        have h2 := ih (fun q hq => hts q (by simp [hq]))
        subst h1
        simp only [sumBy, List.map_cons, List.sum_cons] at *; omega
    exact this c.ts hq
  -- with no thread inside, the flag is `VALIDATED` if the cell is written
  have hflag : ∀ as c, run acquire (Cfg.new n) as = some c → none ∉ c.checks → c.flag ≠ .validated →
      sumBy lockedN c.ts = 0 → (∀ p ∈ c.ts, p ≠ .written) → c.cell = none := by
    have key : ∀ as (c d : Cfg), Inv acquire c → (c.cell ≠ none → c.flag = .validated ∨ ∃ t : Nat, c.ts[t]? = some Pc.written) → run acquire c as = some d → none ∉ d.checks →
        (d.cell ≠ none → d.flag = .validated ∨ ∃ t : Nat, d.ts[t]? = some Pc.written) := by
      intro as
      induction as with
      | nil => intro c d hi hh h _; cases h; exact hh
      | cons a as ih =>
        intro c d hi hh h hn
        simp only [run] at h
        cases hs : step acquire c a with
        | none => rw [hs] at h; cases h
        | some e =>
          rw [hs] at h
          obtain ⟨e', he', hie⟩ := step_inv hi a
          rw [hs] at he'; cases he'
          refine ih e d hie ?_ h hn
          have hnc : none ∉ c.checks := fun h' => hn (checks_run as h _ (checks_step hs _ h'))
          intro hce
          by_cases hcc : c.cell = none
          · -- the cell was written by this step
            have hsafe : ∀ (x : Cfg), some x = some e → x.cell = c.cell → e.flag = .validated ∨ ∃ t : Nat, e.ts[t]? = some Pc.written := by
              intro x hx hcell; cases hx; rw [hcell] at hce; exact absurd hcc hce
            revert hs
            unfold step
            split
            all_goals first
              | (intro hs; exact hsafe _ hs rfl)
              | skip
            · intro hs
              dsimp only at hs
              split at hs
              · exact hsafe _ hs (by simp only [setPc]; split <;> rfl)
              · unfold readCell at hs
                split at hs
                · cases hs
                · exact hsafe _ hs (by simp only [setPc]; split <;> rfl)
              · exact hsafe _ hs (by simp only [setPc]; split <;> rfl)
              · exact hsafe _ hs (by split <;> rfl)
            · split <;> (intro hs; exact hsafe _ hs rfl)
            · split <;> (intro hs; exact hsafe _ hs rfl)
            · rename_i t v ht
              intro hs; cases hs
              have := (List.getElem?_eq_some_iff.mp ht).1
              exact .inr ⟨t, by simp only [Act.thread] at this; simp [setPc, this]⟩
            · unfold readCell
              split
              · intro h; cases h
              · intro hs; exact hsafe _ hs rfl
          · rcases hh hcc with hv | ⟨t, ht⟩
            · exact .inl ((step_flag hi hs hv).resolve_right hnc)
            · -- `t` is still about to publish, or publishes
              have hmove : ∀ (x : Cfg) (u : Nat) (p q : Pc), c.ts[u]? = some p → p ≠ .written → some x = some e → x.ts = c.ts.set u q → e.flag = .validated ∨ ∃ t : Nat, e.ts[t]? = some Pc.written := by
                intro x u p q hu hp hx hts
                cases hx
                refine .inr ⟨t, ?_⟩
                rw [hts]
                by_cases htu : u = t
                · subst htu; rw [ht] at hu; cases hu; exact absurd rfl hp
                · rw [List.getElem?_set_ne htu]; exact ht
              revert hs
              unfold step
              split
              · rename_i u hu; intro hs; exact hmove _ u _ _ hu (by simp) hs rfl
              · rename_i u hu
                intro hs
                dsimp only at hs
                split at hs
                · exact hmove _ u _ .checking hu (by simp) hs (by simp only [setPc]; split <;> rfl)
                · unfold readCell at hs
                  split at hs
                  · cases hs
                  · rename_i v _; exact hmove _ u _ (.done (some v)) hu (by simp) hs (by simp only [setPc]; split <;> rfl)
                · exact hmove _ u _ (.done none) hu (by simp) hs (by simp only [setPc]; split <;> rfl)
                · cases hs; exact .inr ⟨t, by split <;> exact ht⟩
              · rename_i u r hu
                split
                · rename_i v; intro hs; exact hmove _ u _ (.have_ v) hu (by simp) hs rfl
                · intro hs; exact hmove _ u _ .failed hu (by simp) hs rfl
              · rename_i u hu; intro hs; exact hmove _ u _ _ hu (by simp) hs rfl
              · rename_i u sp v hu
                split
                · intro hs; exact hmove _ u _ (.locked v) hu (by simp) hs rfl
                · intro hs; exact hmove _ u _ .looping hu (by simp) hs rfl
              · rename_i u v hu; intro hs; exact hmove _ u _ _ hu (by simp) hs rfl
              · rename_i u hu
                unfold readCell
                split
                · intro h; cases h
                · intro hs; cases hs; exact .inl rfl
              · rename_i u x hu; intro hs; exact hmove _ u _ _ hu (by simp) hs rfl
              · intro hs; cases hs; exact .inr ⟨t, ht⟩
    intro as c hrun hn hv _ hw
    by_cases hcell : c.cell = none
    · exact hcell
    · rcases key as _ _ (inv_new acquire n) (by simp [Cfg.new]) hrun hn hcell with h | ⟨t, ht⟩
      · exact absurd h hv
      · exact absurd rfl (hw _ (List.mem_of_getElem? ht))
  have hh := hz lockedN rfl
  by_cases hv : c.flag = .validated
  · cases hcell : c.cell with
    | none => exact absurd hcell (hi.valid hv).1
    | some w =>
      refine ⟨{ c with dropped := c.dropped ++ [w] }, by simp [drop, hv, hcell], fun v => ?_⟩
      have h1 := hi.ledger v
      rw [hz (held v) rfl, hcell] at h1
      simp only [inCell, List.count_append] at *
      by_cases hvw : w = v
      · subst hvw; simp at *; omega
      · simp [hvw] at *; omega
  · have hcell := hflag as c hc hok hv hh (fun p hp => by rw [hq p hp]; simp)
    refine ⟨c, by simp [drop, hv], fun v => ?_⟩
    have h1 := hi.ledger v
    rw [hz (held v) rfl, hcell] at h1
    simp only [inCell] at h1
    omega

/-- A history of two threads in which both run the checker, one loses the exchange and waits, and both return; a third call finds the flag set. -/
def history : List Act :=
  [.call 0, .call 1, .load 0, .load 1, .check 0 (some 7), .check 1 (some 7), .cas 1 true, .cas 0 false, .load 1, .write 0, .load 1, .publish 0, .load 1, .leave 0, .leave 1, .call 0, .load 0, .leave 0]

/-- The cases below meet the hypotheses of the theorems above: both symbols the checker made are dropped, and all three calls are `Ok`. -/
example : (run true (Cfg.new 2) history).map (fun c => (c.outs, c.checks, c.writes, c.dropped, c.raced, c.ts, c.flag, (drop c).map (·.dropped)))
    = some ([some 7, some 7, some 7], [some 7, some 7], 1, [7], false, [.idle, .idle], .validated, some [7, 7]) := rfl

/-- A failing check is reported to both callers. -/
example : (run true (Cfg.new 2) [.call 0, .call 1, .load 0, .check 0 none, .invalidate 0, .load 1]).map (fun c => (c.outs, c.checks)) = some ([none, none], [none]) := by decide

/-- **C40** (memory ordering): *if* the load of the flag acquired, no read of the cell would race with its write, for every number of threads and interleaving.
Missing from the code: the load is `Relaxed`, see `C40_relaxed_load_refuted`. -/
theorem C40_acquire_no_race_partial (n : Nat) (as : List Act) (c : Cfg) (hc : run true (Cfg.new n) as = some c) : c.raced = false := by
  obtain ⟨c', hc', hi⟩ := run_inv as (inv_new true n)
  rw [hc] at hc'; cases hc'
  exact hi.race rfl

/-- **C40** refuted for the load as it is written: with `Relaxed`, a second thread reads the symbol without knowing of the write. -/
theorem C40_relaxed_load_refuted : ∃ as c, run false (Cfg.new 2) as = some c ∧ c.raced = true ∧ ∀ x ∈ c.checks, x = some 7 :=
  ⟨[.call 0, .load 0, .check 0 (some 7), .cas 0 false, .write 0, .publish 0, .call 1, .load 1], _, rfl, rfl, by
    intro x hx
    have : x ∈ [some 7] := hx
    simpa using this⟩

/-- **C40** refuted for a checker whose answer varies (the type takes any function): two threads run it, one gets a symbol and publishes it, the other fails and
overwrites the flag.  The import was validated and is not any more, later callers get an error although two got the symbol, and the symbol is never dropped. -/
theorem C40_stays_validated_refuted : ∃ as bs c d e, run true (Cfg.new 3) as = some c ∧ c.flag = .validated ∧ run true c bs = some d ∧ d.flag = .invalidated ∧
    d.outs = [some 7, some 7, none, none] ∧ drop d = some e ∧ e.dropped.count 7 = 0 ∧ e.checks.count (some 7) = 1 :=
  ⟨[.call 0, .call 1, .load 0, .load 1, .check 0 (some 7), .check 1 none, .cas 0 false, .write 0, .publish 0, .call 2, .load 2],
   [.invalidate 1, .leave 2, .call 2, .load 2], _, _, _, rfl, rfl, rfl, rfl, rfl, rfl, rfl, rfl⟩

/-! ### C40: canaries -/

def inCanary : Canary.Pc → Nat
  | .canary => 1
  | _ => 0

def canaries (ts : List Canary.Pc) : Nat := (ts.map inCanary).sum

theorem canaries_set {ts : List Canary.Pc} {t : Nat} {p q : Canary.Pc} (h : ts[t]? = some p) : canaries (ts.set t q) + inCanary p = canaries ts + inCanary q := by
  induction ts generalizing t with
  | nil => simp at h
  | cons x xs ih =>
    cases t with
    | zero => simp at h; subst h; simp [canaries]; omega
    | succ t =>
      simp at h
      have := ih h
      simp only [canaries, List.set_cons_succ, List.map_cons, List.sum_cons] at *
      omega

structure CInv (c : Canary.Cfg) : Prop where
  once : c.begun = canaries c.ts + c.returned
  flag : c.begun = if c.checked then 1 else 0
  done : .done ∈ c.ts → c.checked = true

theorem cinv_step {c : Canary.Cfg} (h : CInv c) (a : Canary.Act) : CInv (Canary.step c a) := by
  have hb := h.once
  have hf := h.flag
  have hd := h.done
  cases a with
  | deref t =>
    simp only [Canary.step]
    split
    · rename_i ht
      split
      · rename_i hc
        have s := canaries_set (q := .done) ht
        simp only [inCanary] at s
        exact ⟨by simp only; omega, by simpa using hf, fun _ => hc⟩
      · rename_i hc
        have s := canaries_set (q := .canary) ht
        simp only [inCanary] at s
        simp [hc] at hf
        exact ⟨by simp only; omega, by simp [hf], fun _ => rfl⟩
    · exact h
  | back t =>
    simp only [Canary.step]
    split
    · rename_i ht
      have s := canaries_set (q := .done) ht
      simp only [inCanary] at s
      refine ⟨by simp only; omega, by simpa using hf, fun _ => ?_⟩
      simp only
      cases hc : c.checked with
      | true => rfl
      | false => simp [hc] at hf; omega
    · exact h
  | leave t =>
    simp only [Canary.step]
    split
    · rename_i ht
      have s := canaries_set (q := .idle) ht
      simp only [inCanary] at s
      refine ⟨by simp only; omega, by simpa using hf, fun _ => hd (List.mem_of_getElem? ht)⟩
    · exact h

theorem cinv_run (as : List Canary.Act) {c : Canary.Cfg} (h : CInv c) : CInv (Canary.run c as) := by
  induction as generalizing c with
  | nil => exact h
  | cons a as ih => exact ih (cinv_step h a)

theorem cinv_new (n : Nat) : CInv (Canary.Cfg.new n) := by
  refine ⟨?_, rfl, by simp [Canary.Cfg.new]⟩
  have : ∀ n, canaries (List.replicate n .idle) = 0 := by
    intro n
    induction n with
    | zero => rfl
    | succ n ih => simp only [canaries, List.replicate_succ, List.map_cons, List.sum_cons, inCanary] at *; omega
  simp [Canary.Cfg.new, this]

/-- **C40** (canaried imports): for every number of threads and interleaving the canary is called at most once; and if a thread has been given the symbol, the canary
has been called, and has returned unless a thread is still inside of it.  Missing: a thread may be given the symbol while another is still inside, see
`C40_canary_before_use_refuted`. -/
theorem C40_canary_partial (n : Nat) (as : List Canary.Act) : (Canary.run (Canary.Cfg.new n) as).begun ≤ 1 ∧
    (.done ∈ (Canary.run (Canary.Cfg.new n) as).ts → (Canary.run (Canary.Cfg.new n) as).begun = 1) ∧
    (.done ∈ (Canary.run (Canary.Cfg.new n) as).ts → .canary ∉ (Canary.run (Canary.Cfg.new n) as).ts → (Canary.run (Canary.Cfg.new n) as).returned = 1) := by
  have h := cinv_run as (cinv_new n)
  generalize Canary.run (Canary.Cfg.new n) as = c at *
  have hf := h.flag
  refine ⟨by rw [hf]; split <;> omega, fun hd => by rw [hf, if_pos (h.done hd)], fun hd hn => ?_⟩
  rw [if_pos (h.done hd)] at hf
  have h0 : canaries c.ts = 0 := by
    have : ∀ ts : List Canary.Pc, .canary ∉ ts → canaries ts = 0 := by
      intro ts hts
      induction ts with
      | nil => rfl
      | cons p ps ih =>
        simp only [List.mem_cons, not_or] at hts
        have h2 := ih hts.2
        have h3 : inCanary p = 0 := by cases p <;> simp_all [inCanary]
        simp only [canaries, List.map_cons, List.sum_cons] at *; omega
    exact this _ hn
  have := h.once
  omega

example : let c := Canary.run (Canary.Cfg.new 2) [.deref 0, .back 0, .deref 1]; c.ts = [.done, .done] ∧ c.begun = 1 ∧ c.returned = 1 := by decide

/-- **C40** refuted for canaried imports: the second thread is given the symbol before the canary has returned. -/
theorem C40_canary_before_use_refuted : ∃ as, let c := Canary.run (Canary.Cfg.new 2) as; .done ∈ c.ts ∧ c.returned = 0 :=
  ⟨[.deref 0, .deref 1], by decide⟩

end Verif.Props.Import
