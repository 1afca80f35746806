import Verif.Swap.Spec
/-! Linearisability of `edit`, when nobody runs between a load and the copy, and no address in use as a `current` is reused. -/
namespace Verif.Swap
variable {V : Type} {empty : V} {keep : Bool} {n : Nat} {s : Nat → Act V}

theorem exec_inv {T : Nat} {c : Cfg V} (h : exec empty keep n s T = some c) : Inv c := by
  induction T generalizing c with
  | zero => simp [exec] at h; subst h; exact inv_new n
  | succ T ih =>
    simp only [exec] at h
    cases hd : exec empty keep n s T with
    | none => simp [hd] at h
    | some d =>
      simp [hd] at h
      rcases step_spec empty keep (ih hd) (s T) with ⟨e, he, hi, _⟩ | ⟨hn, _⟩
      · rw [he] at h; cases h; exact hi
      · rw [hn] at h; cases h

theorem NoRace.mono {T T' : Nat} (h : NoRace empty keep n s T) (hle : T' ≤ T) : NoRace empty keep n s T' :=
  fun i hi => h i (by omega)

theorem NoAba.mono {T T' : Nat} (h : NoAba empty keep n s T) (hle : T' ≤ T) : NoAba empty keep n s T' :=
  fun i hi => h i (by omega)

theorem At.unique {i : Nat} {x y : V} (h : At empty keep n s i x) (h' : At empty keep n s i y) : x = y := by
  obtain ⟨c, hc, rfl⟩ := h
  obtain ⟨d, hd, rfl⟩ := h'
  rw [hc] at hd; cases hd; rfl

/-- The value of `p` was `x` when it was read. -/
def ValOk (empty : V) (c : Cfg V) (cur : Option Nat) (x : V) : Prop :=
  match cur with
  | none => x = empty
  | some a => ∀ o, c.mem a = some o → o.val = x

/-- What `new` stands for. -/
def Res (keep : Bool) (c : Cfg V) (f : Fn V) (seen : List V) (cur new : Option Nat) (kept : Bool) : Prop :=
  match f seen with
  | .same => new = cur ∧ kept = false
  | .null => new = none ∧ kept = keep
  | .node v => kept = keep ∧ new ≠ cur ∧ ∃ a o, new = some a ∧ c.mem a = some o ∧ o.val = v

/-- A call in progress: it began at step `b`, and read the pointer for the last time at step `r`. -/
structure Span (empty : V) (keep : Bool) (n : Nat) (s : Nat → Act V) (T : Nat) (lin : Nat → Option Nat) (t : Nat) (f : Fn V) (prev : List V) (b r : Nat) : Prop where
  begins : Begins empty keep n s b t f
  le : b ≤ r
  lt : r < T
  free : lin r = none
  actor : (s r).actor = t
  open_ : ∀ j, b < j → j < T → ∀ f' seen', ¬ Ends empty keep n s j t f' seen'
  past : ∀ y ∈ prev, ∃ i, b ≤ i ∧ i ≤ r ∧ At empty keep n s i y
  tried : ∀ q, q <:+ prev → q ≠ [] → f q ≠ .same

def Fly (empty : V) (keep : Bool) (n : Nat) (s : Nat → Act V) (T : Nat) (lin : Nat → Option Nat) (c : Cfg V) (t : Nat) : Pc V → Prop
  | .idle => True
  | .loaded f prev cur => c.cell = cur ∧ ∃ b r, Span empty keep n s T lin t f prev b r ∧ At empty keep n s r (c.content empty)
  | .copied f seen cur => ∃ b r x prev, seen = x :: prev ∧ Span empty keep n s T lin t f prev b r ∧ At empty keep n s r x ∧ ValOk empty c cur x
  | .ready f seen cur new kept => ∃ b r x prev, seen = x :: prev ∧ Span empty keep n s T lin t f prev b r ∧ At empty keep n s r x ∧
      ValOk empty c cur x ∧ Res keep c f seen cur new kept

structure G (empty : V) (keep : Bool) (n : Nat) (s : Nat → Act V) (T : Nat) (lin : Nat → Option Nat) (c : Cfg V) : Prop where
  at_ : exec empty keep n s T = some c
  dom : ∀ i j, lin i = some j → i ≤ j ∧ j < T ∧ (s i).actor = (s j).actor
  isLin : Linearizes empty keep n s T lin
  fly : ∀ t p, c.ts[t]? = some p → Fly empty keep n s T lin c t p

theorem Ends.actor {j t : Nat} {f : Fn V} {seen : List V} (h : Ends empty keep n s j t f seen) : (s j).actor = t := by
  obtain ⟨_, _, h, _⟩ := h; rw [h]; rfl

theorem Span.extend {T : Nat} {lin lin' : Nat → Option Nat} {t : Nat} {f : Fn V} {prev : List V} {b r : Nat}
    (h : Span empty keep n s T lin t f prev b r) (hl : lin' r = none) (he : ∀ f' seen', ¬ Ends empty keep n s T t f' seen') :
    Span empty keep n s (T + 1) lin' t f prev b r where
  begins := h.begins
  le := h.le
  lt := by have := h.lt; omega
  free := hl
  actor := h.actor
  open_ := fun j hb hj f' seen' => by
    by_cases hjT : j = T
    · subst hjT; exact he f' seen'
    · exact h.open_ j hb (by omega) f' seen'
  past := h.past
  tried := h.tried

theorem Inv.cell_live {c : Cfg V} (h : Inv c) {a : Nat} (ha : c.cell = some a) : ∃ o, c.mem a = some o :=
  Bal.live h (by simp [ha, own]; omega)

theorem Inv.held_live {c : Cfg V} (h : Inv c) {a t : Nat} {p : Pc V} (ht : c.ts[t]? = some p) (hp : 0 < p.holds a) : ∃ o, c.mem a = some o :=
  Bal.live h (by have := holds_le_total a ht; omega)

/-- What is in memory after a step, and is not the new root, was there before. -/
theorem Moves.val {c d : Cfg V} {act : Act V} (h : Moves empty keep c act d) {a : Nat} {o' : Obj V} (hd : d.mem a = some o') :
    (∃ o, c.mem a = some o ∧ o.val = o'.val) ∨ (∃ t early, act = .make t a early ∧ t = act.actor) ∨ (keep = false ∧ ∃ t, act = .mutate t) := by
  cases h with
  | stay => exact .inl ⟨o', hd, rfl⟩
  | start => exact .inl ⟨o', hd, rfl⟩
  | copyNull => exact .inl ⟨o', hd, rfl⟩
  | copy _ _ _ _ hs => exact .inl (hs a o' hd)
  | same => exact .inl ⟨o', hd, rfl⟩
  | null _ _ _ _ hs => exact .inl (hs a o' hd)
  | @node t b early f seen cur v _ e h hf hs hb he hv hm _ ht =>
    by_cases hab : a = b
    · subst hab; exact .inr (.inl ⟨t, early, rfl, rfl⟩)
    · obtain ⟨o, ho, hv⟩ := hm a o' hab hd
      obtain ⟨o2, ho2, hv2⟩ := hs a o ho
      exact .inl ⟨o2, ho2, hv2.trans hv⟩
  | @mutate t _ _ _ _ _ _ _ _ hk => exact .inr (.inr ⟨hk, t, rfl⟩)
  | again _ _ _ _ _ _ _ hs => exact .inl (hs a o' hd)
  | unchanged _ _ _ hs => exact .inl (hs a o' hd)
  | swap _ _ _ _ _ hs => exact .inl (hs a o' hd)

/-- What another thread holds stays in memory unchanged. -/
theorem Moves.held {c d : Cfg V} {act : Act V} (h : Moves empty keep c act d) (hc : Inv c) {u : Nat} {p : Pc V} (hu : u ≠ act.actor)
    (hp : c.ts[u]? = some p) {a : Nat} (ha : 0 < p.holds a) {o' : Obj V} (hd : d.mem a = some o') : ∃ o, c.mem a = some o ∧ o.val = o'.val := by
  cases h with
  | @node t b early f seen cur v _ e h hf hs hb he hv hm _ ht =>
    by_cases hab : a = b
    · subst hab
      obtain ⟨R, hR, hle⟩ := hb
      have h1 := hR.zero he
      have h2 := hle a
      have h3 := holds_two_le a hu hp h
      have h4 : own (if keep then none else cur) a ≤ own cur a := by cases keep <;> simp
      simp only [holds_copied] at h3
      omega
    · obtain ⟨o, ho, hv⟩ := hm a o' hab hd
      obtain ⟨o2, ho2, hv2⟩ := hs a o ho
      exact ⟨o2, ho2, hv2.trans hv⟩
  | @mutate t b f seen v o _ h hf hk ho h1 hm =>
    by_cases hab : a = b
    · subst hab
      have h2 := holds_two_le a hu hp h
      have h3 := hc.1 a
      have h4 : own (some a) a = 1 := by simp [own]
      simp only [holds_copied, h4] at h2
      simp only [cnt, ho, h1] at h3
      omega
    · exact ⟨o', hm a o' hab hd, rfl⟩
  | stay => exact ⟨o', hd, rfl⟩
  | start => exact ⟨o', hd, rfl⟩
  | copyNull => exact ⟨o', hd, rfl⟩
  | copy _ _ _ _ hs => exact hs a o' hd
  | same => exact ⟨o', hd, rfl⟩
  | null _ _ _ _ hs => exact hs a o' hd
  | again _ _ _ _ _ _ _ hs => exact hs a o' hd
  | unchanged _ _ _ hs => exact hs a o' hd
  | swap _ _ _ _ _ hs => exact hs a o' hd

theorem Moves.ts_other {c d : Cfg V} {act : Act V} (h : Moves empty keep c act d) {u : Nat} (hu : u ≠ act.actor) : d.ts[u]? = c.ts[u]? := by
  cases h with
  | stay => rfl
  | start => simp only [setPc]; exact List.getElem?_set_ne (Ne.symm hu)
  | copyNull => simp only [setPc]; exact List.getElem?_set_ne (Ne.symm hu)
  | copy _ _ _ ht => rw [ht]; exact List.getElem?_set_ne (Ne.symm hu)
  | same => simp only [setPc]; exact List.getElem?_set_ne (Ne.symm hu)
  | null _ _ _ ht => rw [ht]; exact List.getElem?_set_ne (Ne.symm hu)
  | node _ _ _ _ _ _ _ _ ht => rw [ht]; exact List.getElem?_set_ne (Ne.symm hu)
  | mutate _ _ _ _ _ _ _ ht => rw [ht]; exact List.getElem?_set_ne (Ne.symm hu)
  | @again t _ _ _ _ _ _ _ ha _ _ _ _ _ ht =>
    rw [ht]; refine List.getElem?_set_ne (fun h => hu ?_)
    rcases ha with rfl | rfl <;> exact h.symm
  | unchanged _ _ ht => rw [ht]; exact List.getElem?_set_ne (Ne.symm hu)
  | swap _ _ _ _ ht => rw [ht]; exact List.getElem?_set_ne (Ne.symm hu)

/-- Steps that do not change the pointer do not change the value. -/
theorem Moves.content {c d : Cfg V} {act : Act V} (h : Moves empty keep c act d) (hc : Inv c) (hd : Inv d) (hcell : d.cell = c.cell) :
    d.content empty = c.content empty := by
  unfold Cfg.content
  rw [hcell]
  cases hx : c.cell with
  | none => rfl
  | some a =>
    obtain ⟨o', ho'⟩ := hd.cell_live (hcell.trans hx)
    obtain ⟨o0, ho0⟩ := hc.cell_live hx
    have : ∃ o, c.mem a = some o ∧ o.val = o'.val := by
      rcases h.val ho' with h1 | ⟨t, early, rfl, _⟩ | ⟨_, t, rfl⟩
      · exact h1
      · cases h with
        | stay => exact ⟨o', ho', rfl⟩
        | null _ _ _ _ hs => exact hs a o' ho'
        | @node _ _ _ f seen cur v _ e h hf hs hb he hv hm _ ht =>
          obtain ⟨R, hR, hle⟩ := hb
          have h1 := hR.zero he
          have h2 := hle a
          have h3 := holds_le_total a h
          have h4 : own c.cell a = 1 := by simp [own, hx]
          have h5 : own (if keep then none else cur) a ≤ own cur a := by cases keep <;> simp
          simp only [holds_copied] at h3
          omega
        | again ha => rcases ha with h | h <;> cases h
      · cases h with
        | stay => exact ⟨o', ho', rfl⟩
        | @mutate _ b f seen v o _ h hf hk ho h1 hm =>
          by_cases hab : a = b
          · subst hab
            have h2 := holds_le_total a h
            have h3 := hc.1 a
            have h4 : own (some a) a = 1 := by simp [own]
            simp only [holds_copied, h4] at h2
            simp only [cnt, ho, h1, hx, h4] at h3
            omega
          · exact ⟨o', hm a o' hab ho', rfl⟩
        | again ha => rcases ha with h | h <;> cases h
    obtain ⟨o, ho, hv⟩ := this
    simp [Cfg.valueOf, ho, ho', hv]

theorem exec_prefix {T : Nat} {c : Cfg V} (h : exec empty keep n s T = some c) {i : Nat} (hi : i ≤ T) : ∃ d, exec empty keep n s i = some d := by
  induction T generalizing c with
  | zero => exact ⟨_, by rw [show i = 0 by omega]; rfl⟩
  | succ T ih =>
    by_cases hT : i = T + 1
    · exact ⟨c, by rw [hT]; exact h⟩
    · simp only [exec] at h
      cases hd : exec empty keep n s T with
      | none => simp [hd] at h
      | some d => exact ih hd (by omega)

theorem fly_other {T : Nat} {lin lin' : Nat → Option Nat} {c d : Cfg V} (hm : Moves empty keep c (s T) d) (hc : Inv c) (hd : Inv d)
    (hat : exec empty keep n s T = some c)
    (hr : NoRace empty keep n s (T + 1)) (ha : keep = true ∨ NoAba empty keep n s (T + 1)) {u : Nat} (hu : u ≠ (s T).actor)
    (hl : ∀ r, lin r = none → (s r).actor = u → lin' r = none) {p : Pc V} (hp : c.ts[u]? = some p) (hf : Fly empty keep n s T lin c u p) :
    Fly empty keep n s (T + 1) lin' d u p := by
  have hE : ∀ f' seen', ¬ Ends empty keep n s T u f' seen' := fun f' seen' h => hu h.actor.symm
  have hp' : d.ts[u]? = some p := (hm.ts_other hu).trans hp
  have hval : ∀ a, p.cur = some a → (keep = true → 0 < p.holds a) → ∀ o', d.mem a = some o' → ∃ o, c.mem a = some o ∧ o.val = o'.val := by
    intro a hcur hk o' ho'
    rcases hm.val ho' with h | ⟨t, early, h, _⟩ | ⟨hk', t, h⟩
    · exact h
    · rcases ha with hk' | ha
      · exact hm.held hc hu hp (hk hk') ho'
      · exact absurd hcur ((ha T (by omega)).2 c hat t a early h u p hp)
    · rcases ha with hk | ha
      · rw [hk] at hk'; cases hk'
      · exact absurd h ((ha T (by omega)).1 t)
  cases p with
  | idle => trivial
  | loaded f seen cur =>
    have := hr T (by omega) c hat u f seen cur hp
    rw [this] at hu; exact absurd rfl hu
  | copied f seen cur =>
    obtain ⟨b, r, x, prev, rfl, hs, hx, hv⟩ := hf
    refine ⟨b, r, x, prev, rfl, hs.extend (hl r hs.free hs.actor) hE, hx, ?_⟩
    cases cur with
    | none => exact hv
    | some a =>
      intro o' ho'
      obtain ⟨o, ho, hov⟩ := hval a rfl (fun _ => by simp [holds_copied, own]) o' ho'
      rw [← hov]; exact hv o ho
  | ready f seen cur new kept =>
    obtain ⟨b, r, x, prev, rfl, hs, hx, hv, hres⟩ := hf
    refine ⟨b, r, x, prev, rfl, hs.extend (hl r hs.free hs.actor) hE, hx, ?_, ?_⟩
    · cases cur with
      | none => exact hv
      | some a =>
        intro o' ho'
        obtain ⟨o, ho, hov⟩ := hval a rfl (fun hk => by
          unfold Res at hres
          rw [holds_ready]
          split at hres
          · rw [hres.1]; simp [own]; omega
          · rw [hres.2, hk]; simp [own]
          · rw [hres.1, hk]; simp [own]) o' ho'
        rw [← hov]; exact hv o ho
    · unfold Res at *
      split at hres
      · exact hres
      · exact hres
      · obtain ⟨h1, h2, a, o, rfl, ho, hov⟩ := hres
        have hh : 0 < (Pc.ready f (x :: prev) cur (some a) kept).holds a := by rw [holds_ready]; simp [own]; omega
        obtain ⟨o', ho'⟩ := hd.held_live hp' hh
        obtain ⟨o2, ho2, hov2⟩ := hm.held hc hu hp hh ho'
        rw [ho] at ho2; cases ho2
        exact ⟨h1, h2, a, o', rfl, ho', hov2 ▸ hov⟩

theorem G.free {T : Nat} {lin : Nat → Option Nat} {c : Cfg V} (h : G empty keep n s T lin c) : lin T = none := by
  cases hl : lin T with
  | none => rfl
  | some j => have := h.dom T j hl; omega

/-- A step at which no call ends. -/
theorem lin_keep {T : Nat} {lin : Nat → Option Nat} {c d : Cfg V} (h : G empty keep n s T lin c) (hd : exec empty keep n s (T + 1) = some d)
    (hc : d.content empty = c.content empty) (hE : ∀ t f seen, ¬ Ends empty keep n s T t f seen) : Linearizes empty keep n s (T + 1) lin where
  quiet := fun i hi hl x y hx hy => by
    by_cases hiT : i = T
    · subst hiT
      obtain ⟨c', hc', rfl⟩ := hx
      obtain ⟨d', hd', rfl⟩ := hy
      rw [h.at_] at hc'; cases hc'
      rw [hd] at hd'; cases hd'
      exact hc
    · exact h.isLin.quiet i (by omega) hl x y hx hy
  effect := fun i hi j hl => by
    have := h.dom i j hl
    exact h.isLin.effect i (by omega) j hl
  once := fun j hj t f seen he => by
    by_cases hjT : j = T
    · subst hjT; exact absurd he (hE t f seen)
    · exact h.isLin.once j (by omega) t f seen he

/-- A step at which a call ends that changed nothing: it took effect when it last read the pointer. -/
theorem lin_unchanged {T : Nat} {lin : Nat → Option Nat} {c d : Cfg V} (h : G empty keep n s T lin c) (hd : exec empty keep n s (T + 1) = some d)
    (hc : d.content empty = c.content empty) {t : Nat} {f : Fn V} {x : V} {prev : List V} {cur new : Option Nat} {kept : Bool}
    (hcas : s T = .cas t) (hp : c.ts[t]? = some (.ready f (x :: prev) cur new kept)) (hcn : cur = new) {b r : Nat} (hs : Span empty keep n s T lin t f prev b r)
    (hx : At empty keep n s r x) (hf : (f (x :: prev)).apply empty x = x) :
    Linearizes empty keep n s (T + 1) (upd lin r (some T)) where
  quiet := fun i hi hl x y hx hy => by
    have hir : i ≠ r := by rintro rfl; simp [upd] at hl
    simp only [upd, hir, if_false] at hl
    by_cases hiT : i = T
    · subst hiT
      obtain ⟨c', hc', rfl⟩ := hx
      obtain ⟨d', hd', rfl⟩ := hy
      rw [h.at_] at hc'; cases hc'
      rw [hd] at hd'; cases hd'
      exact hc
    · exact h.isLin.quiet i (by omega) hl x y hx hy
  effect := fun i hi j hl => by
    by_cases hir : i = r
    · subst hir
      simp [upd] at hl; subst hl
      refine ⟨t, f, prev, x, ⟨c, h.at_, hcas, cur, new, kept, hp, .inl hcn⟩, hx, ?_⟩
      rw [hf]
      have hlt := hs.lt
      obtain ⟨e, he⟩ := exec_prefix h.at_ (i := i + 1) (by omega)
      refine ⟨e, he, ?_⟩
      exact h.isLin.quiet i hlt hs.free x _ hx ⟨e, he, rfl⟩
    · simp only [upd, hir, if_false] at hl
      have := h.dom i j hl
      exact h.isLin.effect i (by omega) j hl
  once := fun j hj t' f' seen' he => by
    by_cases hjT : j = T
    · subst hjT
      obtain ⟨c', hc', hcas', cur', new', kept', hp', _⟩ := he
      rw [h.at_] at hc'; cases hc'
      rw [hcas] at hcas'; cases hcas'
      rw [hp] at hp'; cases hp'
      have hlt := hs.lt
      refine ⟨r, b, by simp [upd], fun i' hi' => ?_, hs.le, by omega, hs.begins, fun j' h1 h2 => hs.open_ j' h1 h2, hs.past, hs.tried⟩
      by_cases hir : i' = r
      · exact hir
      · simp only [upd, hir, if_false] at hi'
        have := h.dom i' j hi'; omega
    · obtain ⟨i, b', h1, h2, h3⟩ := h.isLin.once j (by omega) t' f' seen' he
      have hir : i ≠ r := by rintro rfl; rw [hs.free] at h1; cases h1
      refine ⟨i, b', by simp [upd, hir, h1], fun i' hi' => ?_, h3⟩
      by_cases hir' : i' = r
      · subst hir'; simp [upd] at hi'; omega
      · simp only [upd, hir', if_false] at hi'; exact h2 i' hi'

/-- A step at which a call ends with a successful exchange: it takes effect there. -/
theorem lin_swap {T : Nat} {lin : Nat → Option Nat} {c d : Cfg V} (h : G empty keep n s T lin c) (hd : exec empty keep n s (T + 1) = some d)
    {t : Nat} {f : Fn V} {x : V} {prev : List V} {cur new : Option Nat} {kept : Bool}
    (hcas : s T = .cas t) (hp : c.ts[t]? = some (.ready f (x :: prev) cur new kept)) (hcc : c.cell = cur) {b r : Nat} (hs : Span empty keep n s T lin t f prev b r)
    (hx : c.content empty = x) (hf : d.content empty = (f (x :: prev)).apply empty x) :
    Linearizes empty keep n s (T + 1) (upd lin T (some T)) where
  quiet := fun i hi hl x y hx hy => by
    have hir : i ≠ T := by rintro rfl; simp [upd] at hl
    simp only [upd, hir, if_false] at hl
    exact h.isLin.quiet i (by omega) hl x y hx hy
  effect := fun i hi j hl => by
    by_cases hir : i = T
    · subst hir
      simp [upd] at hl; subst hl
      exact ⟨t, f, prev, x, ⟨c, h.at_, hcas, cur, new, kept, hp, .inr hcc⟩, ⟨c, h.at_, hx⟩, ⟨d, hd, hf⟩⟩
    · simp only [upd, hir, if_false] at hl
      have := h.dom i j hl
      exact h.isLin.effect i (by omega) j hl
  once := fun j hj t' f' seen' he => by
    have hlt := hs.lt
    have hle := hs.le
    by_cases hjT : j = T
    · subst hjT
      obtain ⟨c', hc', hcas', cur', new', kept', hp', _⟩ := he
      rw [h.at_] at hc'; cases hc'
      rw [hcas] at hcas'; cases hcas'
      rw [hp] at hp'; cases hp'
      refine ⟨j, b, by simp [upd], fun i' hi' => ?_, by omega, by omega, hs.begins, fun j' h1 h2 => hs.open_ j' h1 h2,
        fun y hy => ?_, hs.tried⟩
      · by_cases hir : i' = j
        · exact hir
        · simp only [upd, hir, if_false] at hi'
          have := h.dom i' j hi'; omega
      · obtain ⟨i, h1, h2, h3⟩ := hs.past y hy
        exact ⟨i, h1, by omega, h3⟩
    · obtain ⟨i, b', h1, h2, h3⟩ := h.isLin.once j (by omega) t' f' seen' he
      have hir : i ≠ T := by rintro rfl; rw [h.free] at h1; cases h1
      refine ⟨i, b', by simp [upd, hir, h1], fun i' hi' => ?_, h3⟩
      by_cases hir' : i' = T
      · subst hir'; simp [upd] at hi'; omega
      · simp only [upd, hir', if_false] at hi'; exact h2 i' hi'

theorem ts_self {ts : List (Pc V)} {t : Nat} {p q : Pc V} (h : ts[t]? = some p) : (ts.set t q)[t]? = some q := by
  have := (List.getElem?_eq_some_iff.mp h).1
  simp [this]

/-- The invariant is kept. -/
theorem G.next {T : Nat} {lin : Nat → Option Nat} {c : Cfg V} (h : G empty keep n s T lin c)
    (hr : NoRace empty keep n s (T + 1)) (ha : keep = true ∨ NoAba empty keep n s (T + 1)) :
    ∃ lin' d, G empty keep n s (T + 1) lin' d := by
  have hi := exec_inv h.at_
  rcases step_spec empty keep hi (s T) with ⟨d, hstep, hid, hm⟩ | ⟨_, t, f, seen, a, hact, ht, hmem⟩
  · have hd : exec empty keep n s (T + 1) = some d := by simp only [exec, h.at_]; exact hstep
    have hT := h.free
    have other : ∀ lin', (∀ r, lin r = none → ∀ u, u ≠ (s T).actor → (s r).actor = u → lin' r = none) →
        ∀ u p, u ≠ (s T).actor → d.ts[u]? = some p → Fly empty keep n s (T + 1) lin' d u p := by
      intro lin' hl u p hu hp
      rw [hm.ts_other hu] at hp
      exact fly_other hm hi hid h.at_ hr ha hu (fun r h1 h2 => hl r h1 u hu h2) hp (h.fly u p hp)
    have dom : ∀ i j, lin i = some j → i ≤ j ∧ j < T + 1 ∧ (s i).actor = (s j).actor := fun i j hl => by
      have := h.dom i j hl; exact ⟨this.1, by omega, this.2.2⟩
    -- steps at which no call ends
    have easy : d.cell = c.cell → (∀ t f seen, ¬ Ends empty keep n s T t f seen) →
        (∀ p, d.ts[(s T).actor]? = some p → Fly empty keep n s (T + 1) lin d (s T).actor p) → ∃ lin' d, G empty keep n s (T + 1) lin' d := by
      intro hcell hE hself
      refine ⟨lin, d, hd, dom, lin_keep h hd (hm.content hi hid hcell) hE, fun t p hp => ?_⟩
      by_cases hta : t = (s T).actor
      · subst hta; exact hself p hp
      · exact other lin (fun r h _ _ _ => h) t p hta hp
    have noEnd : (∀ t, s T ≠ .cas t) → ∀ t f seen, ¬ Ends empty keep n s T t f seen := fun hne t f seen ⟨_, _, he, _⟩ => hne t he
    generalize hact : s T = act at *
    cases hm with
    | stay _ hc' hr' =>
      have hE : ∀ t f seen, ¬ Ends empty keep n s T t f seen := fun t f seen ⟨c', hc2, hs2, cur, new, kept, hp, _⟩ => by
        rw [h.at_] at hc2; cases hc2
        exact hr' t f seen cur new kept (hact ▸ hs2) hp
      refine easy rfl hE (fun p hp => ?_)
      have hf := h.fly _ p hp
      cases p with
      | idle => trivial
      | loaded f seen cur =>
        have := hr T (by omega) c h.at_ _ f seen cur hp
        exact absurd hp (hc' _ f seen cur (hact ▸ this))
      | copied f seen cur =>
        obtain ⟨b, r, x, prev, rfl, hs, hx, hv⟩ := hf
        exact ⟨b, r, x, prev, rfl, hs.extend hs.free (hE _), hx, hv⟩
      | ready f seen cur new kept =>
        obtain ⟨b, r, x, prev, rfl, hs, hx, hv, hres⟩ := hf
        exact ⟨b, r, x, prev, rfl, hs.extend hs.free (hE _), hx, hv, hres⟩
    | @start t f ht =>
      refine easy rfl (noEnd (by simp)) (fun p hp => ?_)
      rw [show (setPc c t (.loaded f [] c.cell)).ts = c.ts.set t (.loaded f [] c.cell) from rfl] at hp
      simp only [Act.actor] at hp ⊢
      rw [ts_self ht] at hp; cases hp
      refine ⟨rfl, T, T, ⟨⟨c, h.at_, hact, ht⟩, by omega, by omega, hT, by rw [hact]; rfl, fun j h1 h2 => by omega, by simp, ?_⟩, ⟨c, h.at_, rfl⟩⟩
      intro q hq hne
      exact absurd (List.suffix_nil.mp hq) hne
    | @copyNull t f prev ht =>
      have hE := noEnd (by simp)
      refine easy rfl hE (fun p hp => ?_)
      simp only [setPc, Act.actor] at hp ⊢
      rw [ts_self ht] at hp; cases hp
      obtain ⟨hcell, b, r, hs, hx⟩ := h.fly t _ ht
      refine ⟨b, r, empty, prev, rfl, hs.extend hs.free (hE _), ?_, rfl⟩
      have : c.content empty = empty := by simp [Cfg.content, hcell, Cfg.valueOf]
      rw [this] at hx; exact hx
    | @copy t a f prev o _ ht ho hcell' hts hsh =>
      have hE := noEnd (by simp)
      refine easy hcell' hE (fun p hp => ?_)
      simp only [Act.actor] at hp ⊢
      rw [hts, ts_self ht] at hp; cases hp
      obtain ⟨hcell, b, r, hs, hx⟩ := h.fly t _ ht
      refine ⟨b, r, o.val, prev, rfl, hs.extend hs.free (hE _), ?_, ?_⟩
      · have : c.content empty = o.val := by simp [Cfg.content, hcell, Cfg.valueOf, ho]
        rw [this] at hx; exact hx
      · intro o' ho'
        obtain ⟨o2, ho2, hv⟩ := hsh a o' ho'
        rw [ho] at ho2; cases ho2; exact hv.symm
    | @same t f seen cur ht hf =>
      have hE := noEnd (by simp)
      refine easy rfl hE (fun p hp => ?_)
      simp only [setPc, Act.actor] at hp ⊢
      rw [ts_self ht] at hp; cases hp
      obtain ⟨b, r, x, prev, rfl, hs, hx, hv⟩ := h.fly t _ ht
      exact ⟨b, r, x, prev, rfl, hs.extend hs.free (hE _), hx, hv, by unfold Res; rw [hf]; exact ⟨rfl, rfl⟩⟩
    | @null t a early f seen cur _ ht hf hcell' hts hsh =>
      have hE := noEnd (by simp)
      refine easy hcell' hE (fun p hp => ?_)
      simp only [Act.actor] at hp ⊢
      rw [hts, ts_self ht] at hp; cases hp
      obtain ⟨b, r, x, prev, rfl, hs, hx, hv⟩ := h.fly t _ ht
      refine ⟨b, r, x, prev, rfl, hs.extend hs.free (hE _), hx, ?_, by unfold Res; rw [hf]; exact ⟨rfl, rfl⟩⟩
      cases cur with
      | none => exact hv
      | some a' =>
        intro o' ho'
        obtain ⟨o2, ho2, hov⟩ := hsh a' o' ho'
        rw [← hov]; exact hv o2 ho2
    | @node t a early f seen cur v _ e ht hf hsh hb he hnew hme hcell' hts =>
      have hE := noEnd (by simp)
      refine easy hcell' hE (fun p hp => ?_)
      simp only [Act.actor] at hp ⊢
      rw [hts, ts_self ht] at hp; cases hp
      obtain ⟨b, r, x, prev, rfl, hs, hx, hv⟩ := h.fly t _ ht
      have hne : cur ≠ some a := by
        rcases ha with hk | ha
        · intro hcur
          obtain ⟨R, hR, hle⟩ := hb
          have h1 := hR.zero he
          have h2 := hle a
          have h3 := holds_le_total a ht
          simp only [holds_copied, hk, hcur] at h2 h3
          simp [own] at h2 h3
          omega
        · exact (ha T (by omega)).2 c h.at_ t a early hact t _ ht
      refine ⟨b, r, x, prev, rfl, hs.extend hs.free (hE _), hx, ?_, ?_⟩
      · cases cur with
        | none => exact hv
        | some a' =>
          intro o' ho'
          obtain ⟨o1, ho1, hov1⟩ := hme a' o' (by intro h; subst h; exact hne rfl) ho'
          obtain ⟨o2, ho2, hov⟩ := hsh a' o1 ho1
          rw [← hov1, ← hov]; exact hv o2 ho2
      · unfold Res; rw [hf]
        obtain ⟨o, ho, hov⟩ := hnew
        exact ⟨rfl, Ne.symm hne, a, o, rfl, ho, hov⟩
    | @mutate t a f seen v o _ ht hf hk =>
      rcases ha with hk' | ha
      · rw [hk] at hk'; cases hk'
      · exact absurd hact ((ha T (by omega)).1 t)
    | @again t act f seen cur new kept _ hact' ht hne hcn hk hcell' hts hsh =>
      have hta : act.actor = t := by rcases hact' with rfl | rfl <;> rfl
      have hE : ∀ t f seen, ¬ Ends empty keep n s T t f seen := fun t' f' seen' ⟨c', hc2, hs2, cur', new', kept', hp, hor⟩ => by
        rw [h.at_] at hc2; cases hc2
        rw [hact] at hs2
        rw [hs2] at hta
        simp only [Act.actor] at hta
        subst hta
        rw [ht] at hp; cases hp
        rcases hor with h1 | h1
        · exact hcn hs2 h1
        · exact hne h1
      have hcont := Moves.content (.again (empty := empty) (keep := keep) hact' ht hne hcn hk hcell' hts hsh) hi hid hcell'
      refine easy hcell' hE (fun p hp => ?_)
      rw [hta] at hp ⊢
      rw [hts, ts_self ht] at hp; cases hp
      obtain ⟨b, r, x, prev, rfl, hs, hx, hv, hres⟩ := h.fly t _ ht
      have hle := hs.le
      have hlt := hs.lt
      refine ⟨hcell', b, T, ⟨hs.begins, by omega, by omega, hT, by rw [hact]; exact hta, fun j h1 h2 => ?_, ?_, ?_⟩, ⟨c, h.at_, hcont.symm⟩⟩
      · by_cases hjT : j = T
        · subst hjT; exact hE t
        · exact hs.open_ j h1 (by omega)
      · intro y hy
        rcases List.mem_cons.mp hy with rfl | hy
        · exact ⟨r, hle, by omega, hx⟩
        · obtain ⟨i, h1, h2, h3⟩ := hs.past y hy
          exact ⟨i, h1, by omega, h3⟩
      · intro q hq hne' hsame
        rcases List.suffix_cons_iff.mp hq with rfl | hq
        · unfold Res at hres
          rw [hsame] at hres
          rcases hact' with h1 | h1
          · have := hk h1; rw [hres.2] at this; cases this
          · exact hcn h1 hres.1.symm
        · exact hs.tried q hq hne' hsame
    | @unchanged t f seen cur kept _ ht hcell' hts hsh =>
      obtain ⟨b, r, x, prev, rfl, hs, hx, hv, hres⟩ := h.fly t _ ht
      have hcont := Moves.content (.unchanged (empty := empty) (keep := keep) ht hcell' hts hsh) hi hid hcell'
      have hlt := hs.lt
      have hact2 := hs.actor
      refine ⟨upd lin r (some T), d, hd, fun i j hl => ?_, lin_unchanged h hd hcont hact ht rfl hs hx ?_, fun t' p hp => ?_⟩
      · by_cases hir : i = r
        · subst hir; simp [upd] at hl; subst hl
          exact ⟨by omega, by omega, by rw [hs.actor, hact]; rfl⟩
        · simp only [upd, hir, if_false] at hl; exact dom i j hl
      · unfold Res at hres
        split at hres
        · rename_i hf; rw [hf]; rfl
        · rename_i hf; rw [hf]; obtain ⟨rfl, _⟩ := hres; exact (show x = empty from hv).symm
        · exact absurd rfl hres.2.1
      · by_cases hta : t' = t
        · subst hta; rw [hts, ts_self ht] at hp; cases hp; trivial
        · refine other _ (fun r' h1 u h2 h3 => ?_) t' p hta hp
          have : r' ≠ r := by rintro rfl; rw [hs.actor] at h3; exact h2 h3.symm
          simp [upd, this, h1]
    | @swap t f seen cur new kept _ ht hne hcc hcell' hts hsh =>
      obtain ⟨b, r, x, prev, rfl, hs, hx, hv, hres⟩ := h.fly t _ ht
      have hxc : c.content empty = x := by
        simp only [Cfg.content]
        cases hcur : c.cell with
        | none => rw [← hcc, hcur] at hv; simp [Cfg.valueOf]; exact (show x = empty from hv).symm
        | some a =>
          obtain ⟨o, ho⟩ := hi.cell_live hcur
          rw [← hcc, hcur] at hv
          simp [Cfg.valueOf, ho]; exact hv o ho
      have hdc : d.content empty = (f (x :: prev)).apply empty x := by
        unfold Res at hres
        split at hres
        · exact absurd hres.1.symm hne
        · rename_i hf; rw [hf]; obtain ⟨rfl, _⟩ := hres
          simp [Cfg.content, hcell', Cfg.valueOf, Next.apply]
        · rename_i v hf; rw [hf]; obtain ⟨_, _, a, o, rfl, ho, hov⟩ := hres
          obtain ⟨o', ho'⟩ := hid.cell_live hcell'
          obtain ⟨o2, ho2, hov2⟩ := hsh a o' ho'
          rw [ho] at ho2; cases ho2
          simp [Cfg.content, hcell', Cfg.valueOf, ho', Next.apply, ← hov2, hov]
      refine ⟨upd lin T (some T), d, hd, fun i j hl => ?_, lin_swap h hd hact ht hcc hs hxc hdc, fun t' p hp => ?_⟩
      · by_cases hir : i = T
        · subst hir; simp [upd] at hl; subst hl
          exact ⟨by omega, by omega, rfl⟩
        · simp only [upd, hir, if_false] at hl; exact dom i j hl
      · by_cases hta : t' = t
        · subst hta; rw [hts, ts_self ht] at hp; cases hp; trivial
        · refine other _ (fun r' h1 u h2 h3 => ?_) t' p hta hp
          have : r' ≠ T := by rintro rfl; rw [hact] at h3; exact h2 h3.symm
          simp [upd, this, h1]
  · -- copying through the pointer that was just read
    exfalso
    obtain ⟨hcell, _⟩ := h.fly t _ ht
    obtain ⟨o, ho⟩ := hi.cell_live hcell
    rw [hmem] at ho; cases ho

theorem linearizes {T : Nat} (hr : NoRace empty keep n s T) (ha : keep = true ∨ NoAba empty keep n s T) : ∃ lin c, G empty keep n s T lin c := by
  induction T with
  | zero =>
    refine ⟨fun _ => none, Cfg.new n, rfl, by simp, ⟨by simp, by simp, by simp⟩, fun t p hp => ?_⟩
    simp [Cfg.new, List.getElem?_replicate] at hp
    obtain ⟨_, rfl⟩ := hp; trivial
  | succ T ih =>
    obtain ⟨lin, c, h⟩ := ih (hr.mono (by omega)) (ha.imp id (fun h => h.mono (by omega)))
    exact h.next hr ha

end Verif.Swap
