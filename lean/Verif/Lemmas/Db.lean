import Verif.Spec.Db

/-!
Lemmas about the cached execution of queries.
-/

namespace Fall

open Spec

variable {Q : Type} {V : Q → Type} {D : Type} {body : (q : Q) → Prog Q V D (V q)}

theorem Eval.det {α : Type} {p : Prog Q V D α} {o o' : Option α} {ds ds' : List D} (h : Eval body p o ds)
    (h' : Eval body p o' ds') : o = o' ∧ ds = ds' := by
  induction h generalizing ds' with
  | ret => cases h'; exact ⟨rfl, rfl⟩
  | panic => cases h'; exact ⟨rfl, rfl⟩
  | emit _ ih =>
    cases h' with
    | emit h' => obtain ⟨rfl, rfl⟩ := ih h'; exact ⟨rfl, rfl⟩
  | ask _ _ ih1 ih2 =>
    cases h' with
    | ask h1 h2 =>
      obtain ⟨e1, -⟩ := ih1 h1
      simp only [Option.some.injEq] at e1
      subst e1
      exact ih2 h2
    | ask_panic h1 => cases (ih1 h1).1
  | ask_panic _ ih =>
    cases h' with
    | ask h1 h2 => cases (ih h1).1
    | ask_panic h1 => exact ⟨rfl, rfl⟩

/-- `Eval` with the number of steps. -/
inductive EvalC (body : (q : Q) → Prog Q V D (V q)) :
    {α : Type} → Prog Q V D α → Option α → List D → Nat → Prop where
  | ret {α : Type} {v : α} : EvalC body (.ret v) (some v) [] 0
  | panic {α : Type} : EvalC body (.panic : Prog Q V D α) none [] 0
  | emit {α : Type} {k : Prog Q V D α} {o : Option α} {d : D} {ds : List D} {n : Nat} : EvalC body k o ds n →
      EvalC body (.emit d k) o (d :: ds) (n + 1)
  | ask {α : Type} {q : Q} {v : V q} {k : V q → Prog Q V D α} {o : Option α} {ds ds' : List D} {m n : Nat} :
      EvalC body (body q) (some v) ds' m → EvalC body (k v) o ds n → EvalC body (.ask q k) o ds (m + n + 2)
  | ask_panic {α : Type} {q : Q} {k : V q → Prog Q V D α} {ds' : List D} {m : Nat} :
      EvalC body (body q) none ds' m → EvalC body (.ask q k) none [] (m + 2)

theorem EvalC.eval {α : Type} {p : Prog Q V D α} {o : Option α} {ds : List D} {n : Nat}
    (h : EvalC body p o ds n) : Eval body p o ds := by
  induction h with
  | ret => exact .ret
  | panic => exact .panic
  | emit _ ih => exact .emit ih
  | ask _ _ ih1 ih2 => exact .ask ih1 ih2
  | ask_panic _ ih => exact .ask_panic ih

theorem Eval.cost {α : Type} {p : Prog Q V D α} {o : Option α} {ds : List D} (h : Eval body p o ds) :
    ∃ n, EvalC body p o ds n := by
  induction h with
  | ret => exact ⟨_, .ret⟩
  | panic => exact ⟨_, .panic⟩
  | emit _ ih => obtain ⟨n, h⟩ := ih; exact ⟨_, .emit h⟩
  | ask _ _ ih1 ih2 => obtain ⟨n, h1⟩ := ih1; obtain ⟨m, h2⟩ := ih2; exact ⟨_, .ask h1 h2⟩
  | ask_panic _ ih => obtain ⟨n, h1⟩ := ih; exact ⟨_, .ask_panic h1⟩

/-- What a thread will do without a cache. -/
inductive TEval (body : (q : Q) → Prog Q V D (V q)) :
    {α : Type} → Task Q V D α → Option α → List D → Nat → Prop where
  | run {α : Type} {p : Prog Q V D α} {o : Option α} {ds : List D} {n : Nat} : EvalC body p o ds n →
      TEval body (.run p) o ds n
  | wait {α : Type} {q : Q} {t : Task Q V D (V q)} {v : V q} {k : V q → Prog Q V D α} {o : Option α}
      {ds ds0 e : List D} {m n : Nat} : TEval body t (some v) e m → EvalC body (k v) o ds n →
      TEval body (.wait q ds0 t k) o ds (m + n + 1)
  | wait_panic {α : Type} {q : Q} {t : Task Q V D (V q)} {k : V q → Prog Q V D α}
      {ds0 e : List D} {m : Nat} : TEval body t none e m → TEval body (.wait q ds0 t k) none [] (m + 1)

/-- The queries a thread is executing will give what they give without a cache. -/
def TInv (body : (q : Q) → Prog Q V D (V q)) : {α : Type} → Task Q V D α → Prop
  | _, .run _ => True
  | _, .wait q ds t _ => TInv body t ∧ ∀ o e n, TEval body t o e n → Eval body (body q) o (ds ++ e)

def GoodDb (body : (q : Q) → Prog Q V D (V q)) (db : Db Q V D) : Prop :=
  ∀ q v, db.cache q = some v → ∃ ds, Eval body (body q) (some v) ds

variable [DecidableEq Q]

theorem store_self (db : Db Q V D) (q : Q) (v : V q) (ds : List D) : (db.store q v ds).cache q = some v := by
  simp [Db.store]

theorem store_ne (db : Db Q V D) {q q' : Q} (v : V q) (ds : List D) (h : q ≠ q') :
    (db.store q v ds).cache q' = db.cache q' := by
  simp [Db.store, h]

theorem store_good {db : Db Q V D} {q : Q} {v : V q} {ds ds' : List D} (hg : GoodDb body db)
    (h : Eval body (body q) (some v) ds') : GoodDb body (db.store q v ds) := by
  intro q' v' h'
  by_cases hq : q = q'
  · subst hq
    rw [store_self] at h'
    cases h'
    exact ⟨_, h⟩
  · rw [store_ne _ _ _ hq] at h'
    exact hg _ _ h'

/-- The evaluations of a thread before and after a step are the same. -/
theorem step_eval {α : Type} {db db' : Db Q V D} {t t' : Task Q V D α} {e : List D}
    (h : Task.Step body db t e db' t') (hg : GoodDb body db) (ht : TInv body t) :
    GoodDb body db' ∧ TInv body t' ∧ (∀ o e' n, TEval body t' o e' n → ∃ n', TEval body t o (e ++ e') n') ∧
      (∀ o d n, TEval body t o d n → ∃ d' n', n' < n ∧ d = e ++ d' ∧ TEval body t' o d' n') := by
  induction h with
  | emit =>
    refine ⟨hg, trivial, ?_, ?_⟩
    · intro o e' n h
      cases h with | run h => exact ⟨_, .run (.emit h)⟩
    · intro o d n h
      cases h with
      | run h => cases h with | emit h => exact ⟨_, _, Nat.lt_succ_self _, rfl, .run h⟩
  | hit hc =>
    obtain ⟨dq, hq⟩ := hg _ _ hc
    obtain ⟨m, hq'⟩ := Eval.cost hq
    refine ⟨hg, trivial, ?_, ?_⟩
    · intro o e' n h
      cases h with | run h => exact ⟨_, .run (.ask hq' h)⟩
    · intro o d n h
      cases h with
      | run h =>
        cases h with
        | ask h1 h2 =>
          have := (Eval.det h1.eval hq).1
          simp only [Option.some.injEq] at this
          subst this
          exact ⟨_, _, by omega, rfl, .run h2⟩
        | ask_panic h1 => cases (Eval.det h1.eval hq).1
  | miss hc =>
    refine ⟨hg, ⟨trivial, fun o e n h => ?_⟩, ?_, ?_⟩
    · cases h with | run h => exact h.eval
    · intro o e' n h
      cases h with
      | wait h1 h2 => cases h1 with | run h1 => exact ⟨_, .run (.ask h1 h2)⟩
      | wait_panic h1 => cases h1 with | run h1 => exact ⟨_, .run (.ask_panic h1)⟩
    · intro o d n h
      cases h with
      | run h =>
        cases h with
        | ask h1 h2 => exact ⟨_, _, by omega, rfl, .wait (.run h1) h2⟩
        | ask_panic h1 => exact ⟨_, _, by omega, rfl, .wait_panic (.run h1)⟩
  | inner _ ih =>
    obtain ⟨g1, g2, g3, g4⟩ := ih hg ht.1
    refine ⟨g1, ⟨g2, fun o e' n h => ?_⟩, ?_, ?_⟩
    · obtain ⟨n', h⟩ := g3 _ _ _ h
      rw [List.append_assoc]
      exact ht.2 _ _ _ h
    · intro o e' n h
      cases h with
      | wait h1 h2 => obtain ⟨n', h1⟩ := g3 _ _ _ h1; exact ⟨_, .wait h1 h2⟩
      | wait_panic h1 => obtain ⟨n', h1⟩ := g3 _ _ _ h1; exact ⟨_, .wait_panic h1⟩
    · intro o d n h
      cases h with
      | wait h1 h2 =>
        obtain ⟨d', n', hn, -, h1'⟩ := g4 _ _ _ h1
        exact ⟨_, _, by omega, rfl, .wait h1' h2⟩
      | wait_panic h1 =>
        obtain ⟨d', n', hn, -, h1'⟩ := g4 _ _ _ h1
        exact ⟨_, _, by omega, rfl, .wait_panic h1'⟩
  | store hc =>
    refine ⟨store_good hg (ht.2 _ _ _ (.run .ret)), trivial, ?_, ?_⟩
    · intro o e' n h
      cases h with | run h => exact ⟨_, .wait (.run .ret) h⟩
    · intro o d n h
      cases h with
      | wait h1 h2 =>
        cases h1 with | run h1 => cases h1 with | ret => exact ⟨_, _, by omega, rfl, .run h2⟩
      | wait_panic h1 => cases h1 with | run h1 => cases h1
  | keep hc =>
    obtain ⟨dq, hq⟩ := hg _ _ hc
    have := (Eval.det hq (ht.2 _ _ _ (.run .ret))).1
    simp only [Option.some.injEq] at this
    subst this
    refine ⟨hg, trivial, ?_, ?_⟩
    · intro o e' n h
      cases h with | run h => exact ⟨_, .wait (.run .ret) h⟩
    · intro o d n h
      cases h with
      | wait h1 h2 =>
        cases h1 with | run h1 => cases h1 with | ret => exact ⟨_, _, by omega, rfl, .run h2⟩
      | wait_panic h1 => cases h1 with | run h1 => cases h1
  | panic =>
    refine ⟨hg, trivial, ?_, ?_⟩
    · intro o e' n h
      cases h with | run h => cases h with | panic => exact ⟨_, .wait_panic (.run .panic)⟩
    · intro o d n h
      cases h with
      | wait h1 h2 => cases h1 with | run h1 => cases h1
      | wait_panic h1 => exact ⟨_, _, by omega, rfl, .run .panic⟩

/-- The diagnostics are those of the cached queries, each once. -/
def Logged (body : (q : Q) → Prog Q V D (V q)) (db : Db Q V D) : Prop :=
  ∃ log : List (Q × List D), (log.map (·.1)).Nodup ∧ (∀ q, q ∈ log.map (·.1) ↔ (db.cache q).isSome = true) ∧
    (∀ p ∈ log, ∃ v, db.cache p.1 = some v ∧ Eval body (body p.1) (some v) p.2) ∧ db.diags = log.flatMap (·.2)

theorem step_logged {α : Type} {db db' : Db Q V D} {t t' : Task Q V D α} {e : List D}
    (h : Task.Step body db t e db' t') (hl : Logged body db) (ht : TInv body t) : Logged body db' := by
  induction h with
  | emit | hit | miss | keep | panic => exact hl
  | inner _ ih => exact ih hl ht.1
  | @store _ db q ds v k hc =>
    obtain ⟨log, h1, h2, h3, h4⟩ := hl
    have hv := ht.2 _ _ _ (.run .ret)
    have hq : ∀ p ∈ log, q ≠ p.1 := by
      intro p hp e
      subst e
      obtain ⟨v, hv, -⟩ := h3 p hp
      rw [hc] at hv
      cases hv
    refine ⟨log ++ [(q, ds)], ?_, ?_, ?_, ?_⟩
    · rw [List.map_append, List.nodup_append]
      refine ⟨h1, by simp, ?_⟩
      intro a ha b hb
      simp only [List.map_cons, List.map_nil, List.mem_singleton] at hb
      subst hb
      rw [List.mem_map] at ha
      obtain ⟨p, hp, rfl⟩ := ha
      exact fun e => hq p hp e.symm
    · intro q'
      by_cases hqq : q = q'
      · subst hqq
        simp [store_self]
      · rw [store_ne _ _ _ hqq, ← h2]
        simp only [List.map_append, List.map_cons, List.map_nil, List.mem_append, List.mem_singleton]
        exact ⟨fun h => h.resolve_right fun e => hqq e.symm, .inl⟩
    · intro p hp
      simp only [List.mem_append, List.mem_singleton] at hp
      rcases hp with hp | rfl
      · obtain ⟨v', e1, e2⟩ := h3 p hp
        exact ⟨v', by rw [store_ne _ _ _ (hq p hp), e1], e2⟩
      · exact ⟨v, store_self _ _ _ _, by simpa using hv⟩
    · simp [Db.store, h4]

/-- The queries that a thread will ask without a cache. -/
inductive TNeeds (body : (q : Q) → Prog Q V D (V q)) : {α : Type} → Task Q V D α → Q → Prop where
  | run {α : Type} {p : Prog Q V D α} {q : Q} : Needs body p q → TNeeds body (.run p) q
  | self {α : Type} {q : Q} {ds : List D} {t : Task Q V D (V q)} {k : V q → Prog Q V D α} :
      TNeeds body (.wait q ds t k) q
  | inner {α : Type} {q q' : Q} {ds : List D} {t : Task Q V D (V q)} {k : V q → Prog Q V D α} :
      TNeeds body t q' → TNeeds body (.wait q ds t k) q'
  | later {α : Type} {q q' : Q} {ds e : List D} {n : Nat} {v : V q} {t : Task Q V D (V q)}
      {k : V q → Prog Q V D α} : TEval body t (some v) e n → Needs body (k v) q' → TNeeds body (.wait q ds t k) q'

/-- What a query needs that is being executed, and will not panic, is cached or will be asked. -/
def NInv (body : (q : Q) → Prog Q V D (V q)) (db : Db Q V D) : {α : Type} → Task Q V D α → Prop
  | _, .run _ => True
  | _, .wait q _ t _ => NInv body db t ∧
      ((∃ v e n, TEval body t (some v) e n) →
        ∀ q', Needs body (body q) q' → (db.cache q').isSome = true ∨ TNeeds body t q')

def Closed (body : (q : Q) → Prog Q V D (V q)) (db : Db Q V D) : Prop :=
  ∀ q, (db.cache q).isSome = true → ∀ q', Needs body (body q) q' → (db.cache q').isSome = true

def Below (db db' : Db Q V D) : Prop := ∀ q, (db.cache q).isSome = true → (db'.cache q).isSome = true

theorem NInv.mono {db db' : Db Q V D} (hb : Below db db') : ∀ {α : Type} {t : Task Q V D α},
    NInv body db t → NInv body db' t := by
  intro α t
  induction t with
  | run => exact fun _ => trivial
  | wait q ds t k ih => exact fun h => ⟨ih h.1, fun hv q' hq' => (h.2 hv q' hq').imp_left (hb q')⟩

theorem store_below (db : Db Q V D) (q : Q) (v : V q) (ds : List D) : Below db (db.store q v ds) := by
  intro q' h
  by_cases hq : q = q'
  · subst hq; simp [store_self]
  · rw [store_ne _ _ _ hq]; exact h

theorem step_needs {α : Type} {db db' : Db Q V D} {t t' : Task Q V D α} {e : List D}
    (h : Task.Step body db t e db' t') (hg : GoodDb body db) (ht : TInv body t) (hc : Closed body db)
    (hn : NInv body db t) :
    Closed body db' ∧ NInv body db' t' ∧ Below db db' ∧
      ((∃ v e n, TEval body t (some v) e n) → ∀ q, TNeeds body t q → (db'.cache q).isSome = true ∨ TNeeds body t' q) ∧
      (∀ q, TNeeds body t' q → TNeeds body t q) ∧
      (∀ q, (db'.cache q).isSome = true → (db.cache q).isSome = true ∨ TNeeds body t q) := by
  induction h with
  | emit =>
    refine ⟨hc, trivial, fun _ h => h, ?_, ?_, fun _ => .inl⟩
    · rintro - q h
      cases h with | run h => cases h with | emit h => exact .inr (.run h)
    · intro q h
      cases h with | run h => exact .run (.emit h)
  | hit hv =>
    obtain ⟨dq, hq⟩ := hg _ _ hv
    refine ⟨hc, trivial, fun _ h => h, ?_, ?_, fun _ => .inl⟩
    · rintro - q h
      cases h with
      | run h =>
        cases h with
        | here => exact .inl (by simp [hv])
        | nested h => exact .inl (hc _ (by simp [hv]) _ h)
        | later h1 h2 =>
          have := (Eval.det h1 hq).1
          simp only [Option.some.injEq] at this
          subst this
          exact .inr (.run h2)
    · intro q h
      cases h with | run h => exact .run (.later hq h)
  | miss =>
    refine ⟨hc, ⟨trivial, fun _ q h => .inr (.run h)⟩, fun _ h => h, ?_, ?_, fun _ => .inl⟩
    · rintro - q h
      cases h with
      | run h =>
        cases h with
        | here => exact .inr .self
        | nested h => exact .inr (.inner (.run h))
        | later h1 h2 =>
          obtain ⟨n, h1⟩ := Eval.cost h1
          exact .inr (.later (.run h1) h2)
    · intro q h
      cases h with
      | self => exact .run .here
      | inner h => cases h with | run h => exact .run (.nested h)
      | later h1 h2 => cases h1 with | run h1 => exact .run (.later h1.eval h2)
  | inner hs ih =>
    obtain ⟨g1, g2, g3, g4⟩ := step_eval hs hg ht.1
    obtain ⟨i1, i2, i3, i4, i5, i6⟩ := ih hg ht.1 hc hn.1
    refine ⟨i1, ⟨i2, fun hv q' hq' => ?_⟩, i3, ?_, ?_, ?_⟩
    · obtain ⟨v, e', n, hv⟩ := hv
      obtain ⟨n', hv⟩ := g3 _ _ _ hv
      rcases hn.2 ⟨_, _, _, hv⟩ q' hq' with h | h
      · exact .inl (i3 q' h)
      · exact i4 ⟨_, _, _, hv⟩ q' h
    · rintro ⟨v, e, n, h⟩ q' hq'
      cases h with
      | wait h1 h2 =>
        cases hq' with
        | self => exact .inr .self
        | inner h => exact (i4 ⟨_, _, _, h1⟩ _ h).imp_right .inner
        | later h3 h4 =>
          obtain ⟨d', n', -, -, h5⟩ := g4 _ _ _ h3
          exact .inr (.later h5 h4)
    · intro q' hq'
      cases hq' with
      | self => exact .self
      | inner h => exact .inner (i5 _ h)
      | later h3 h4 =>
        obtain ⟨n, h5⟩ := g3 _ _ _ h3
        exact .later h5 h4
    · intro q' hq'
      exact (i6 q' hq').imp_right .inner
  | @store _ db q ds v k hv =>
    have hb := store_below db q v ds
    refine ⟨?_, trivial, hb, ?_, ?_, ?_⟩
    · intro q1 h1 q2 h2
      by_cases hq : q = q1
      · subst hq
        rcases hn.2 ⟨_, _, _, .run .ret⟩ q2 h2 with h | h
        · exact hb _ h
        · cases h with | run h => cases h
      · rw [store_ne _ _ _ hq] at h1
        exact hb _ (hc _ h1 _ h2)
    · rintro - q' hq'
      cases hq' with
      | self => exact .inl (by simp [store_self])
      | inner h => cases h with | run h => cases h
      | later h1 h2 => cases h1 with | run h1 => cases h1 with | ret => exact .inr (.run h2)
    · intro q' hq'
      cases hq' with | run h => exact .later (.run .ret) h
    · intro q' hq'
      by_cases hq : q = q'
      · subst hq; exact .inr .self
      · rw [store_ne _ _ _ hq] at hq'; exact .inl hq'
  | keep hv =>
    obtain ⟨dq, hq⟩ := hg _ _ hv
    have := (Eval.det hq (ht.2 _ _ _ (.run .ret))).1
    simp only [Option.some.injEq] at this
    subst this
    refine ⟨hc, trivial, fun _ h => h, ?_, ?_, fun _ => .inl⟩
    · rintro - q' hq'
      cases hq' with
      | self => exact .inl (by simp [hv])
      | inner h => cases h with | run h => cases h
      | later h1 h2 => cases h1 with | run h1 => cases h1 with | ret => exact .inr (.run h2)
    · intro q' hq'
      cases hq' with | run h => exact .later (.run .ret) h
  | panic =>
    refine ⟨hc, trivial, fun _ h => h, ?_, ?_, fun _ => .inl⟩
    · rintro ⟨v, e, n, h⟩ q' hq'
      cases h with | wait h1 h2 => cases h1 with | run h1 => cases h1
    · intro q' hq'
      cases hq' with | run h => cases h

/-- What a thread has in common with the program it started with. -/
structure Follows (body : (q : Q) → Prog Q V D (V q)) (db : Db Q V D) {α : Type} (p : Prog Q V D α)
    (t : Task Q V D α) : Prop where
  inv : TInv body t
  ninv : NInv body db t
  back : ∀ o e n, TEval body t o e n → ∃ e', Eval body p o e'
  forth : ∀ o e, Eval body p o e → ∃ e' n, TEval body t o e' n
  needs : (∃ v e, Eval body p (some v) e) → ∀ q, Needs body p q → (db.cache q).isSome = true ∨ TNeeds body t q
  needed : ∀ q, TNeeds body t q → Needs body p q

theorem Follows.mono {db db' : Db Q V D} (hb : Below db db') {α : Type} {p : Prog Q V D α} {t : Task Q V D α}
    (h : Follows body db p t) : Follows body db' p t :=
  ⟨h.inv, h.ninv.mono hb, h.back, h.forth, fun hv q hq => (h.needs hv q hq).imp_left (hb q), h.needed⟩

structure SysInv (body : (q : Q) → Prog Q V D (V q)) {ρ : Type} (clients : List (Prog Q V D ρ))
    (s : Db Q V D × List (Task Q V D ρ)) : Prop where
  good : GoodDb body s.1
  logged : Logged body s.1
  closed : Closed body s.1
  length : s.2.length = clients.length
  follows : ∀ (i : Nat) (p : Prog Q V D ρ) (t : Task Q V D ρ), clients[i]? = some p → s.2[i]? = some t → Follows body s.1 p t
  cached : ∀ q, (s.1.cache q).isSome = true → ∃ p ∈ clients, Needs body p q

theorem sysInv_init {ρ : Type} (clients : List (Prog Q V D ρ)) :
    SysInv body clients (Db.new, clients.map .run) := by
  refine ⟨?_, ⟨[], by simp, by simp [Db.new], by simp, rfl⟩, ?_, by simp, ?_, ?_⟩
  · intro q v h; simp [Db.new] at h
  · intro q h; simp [Db.new] at h
  · intro i p t h1 h2
    rw [List.getElem?_map, h1] at h2
    simp only [Option.map_some, Option.some.injEq] at h2
    subst h2
    refine ⟨trivial, trivial, ?_, ?_, ?_, ?_⟩
    · intro o e n h
      cases h with | run h => exact ⟨_, h.eval⟩
    · intro o e h
      obtain ⟨n, h⟩ := Eval.cost h
      exact ⟨_, _, .run h⟩
    · exact fun _ q h => .inr (.run h)
    · intro q h
      cases h with | run h => exact h
  · intro q h; simp [Db.new] at h

theorem sysInv_step {ρ : Type} {clients : List (Prog Q V D ρ)} {s s' : Db Q V D × List (Task Q V D ρ)}
    (h : SysInv body clients s) (hs : SysStep body s s') : SysInv body clients s' := by
  cases hs with
  | @mk ts i t db e db' t' hi hs =>
    have hil : i < ts.length := (List.getElem?_eq_some_iff.1 hi).1
    have hlen := h.length
    simp only at hlen
    obtain ⟨p, hp⟩ : ∃ p, clients[i]? = some p := ⟨clients[i]'(by omega), by rw [List.getElem?_eq_getElem]⟩
    have hf := h.follows i p t hp hi
    obtain ⟨g1, g2, g3, g4⟩ := step_eval hs h.good hf.inv
    obtain ⟨i1, i2, i3, i4, i5, i6⟩ := step_needs hs h.good hf.inv h.closed hf.ninv
    refine ⟨g1, step_logged hs h.logged hf.inv, i1, by simpa using hlen, ?_, ?_⟩
    · intro j p' t'' hp' hj
      simp only [List.getElem?_set] at hj
      split at hj
      · rename_i hij
        subst hij
        simp only [Option.some.injEq] at hj
        subst hj
        rw [hp] at hp'
        simp only [Option.some.injEq] at hp'
        subst hp'
        refine ⟨g2, i2, ?_, ?_, ?_, ?_⟩
        · intro o e n ht
          obtain ⟨n', ht⟩ := g3 _ _ _ ht
          exact hf.back _ _ _ ht
        · intro o e he
          obtain ⟨e', n, ht⟩ := hf.forth _ _ he
          obtain ⟨d', n', -, -, ht⟩ := g4 _ _ _ ht
          exact ⟨_, _, ht⟩
        · rintro ⟨v, e, he⟩ q hq
          obtain ⟨e', n, ht⟩ := hf.forth _ _ he
          rcases hf.needs ⟨v, e, he⟩ q hq with h | h
          · exact .inl (i3 q h)
          · exact i4 ⟨_, _, _, ht⟩ q h
        · exact fun q hq => hf.needed q (i5 q hq)
      · exact (h.follows j p' t'' hp' hj).mono i3
    · intro q hq
      rcases i6 q hq with h' | h'
      · exact h.cached q h'
      · exact ⟨p, List.mem_of_getElem? hp, hf.needed q h'⟩

theorem sysInv_reach {ρ : Type} {clients : List (Prog Q V D ρ)} {s s' : Db Q V D × List (Task Q V D ρ)}
    (h : SysInv body clients s) (hr : Reach (SysStep body) s s') : SysInv body clients s' := by
  induction hr with
  | refl => exact h
  | step _ hs ih => exact sysInv_step ih hs

/-- The steps that remain. -/
inductive Costs (body : (q : Q) → Prog Q V D (V q)) {ρ : Type} : List (Task Q V D ρ) → Nat → Prop where
  | nil : Costs body [] 0
  | cons {t : Task Q V D ρ} {o : Option ρ} {e : List D} {n m : Nat} {ts : List (Task Q V D ρ)} :
      TEval body t o e n → Costs body ts m → Costs body (t :: ts) (n + m)

theorem costs_set {ρ : Type} {ts : List (Task Q V D ρ)} {n i : Nat} {t t' : Task Q V D ρ} (h : Costs body ts n)
    (hi : ts[i]? = some t)
    (ht : ∀ o d n, TEval body t o d n → ∃ o d' n', n' < n ∧ TEval body t' o d' n') :
    ∃ n', n' < n ∧ Costs body (ts.set i t') n' := by
  induction h generalizing i with
  | nil => simp at hi
  | cons h1 h2 ih =>
    cases i with
    | zero =>
      simp only [List.getElem?_cons_zero, Option.some.injEq] at hi
      subst hi
      obtain ⟨o, d', n', hn, h⟩ := ht _ _ _ h1
      exact ⟨_, by omega, .cons h h2⟩
    | succ i =>
      simp only [List.getElem?_cons_succ] at hi
      obtain ⟨n', hn, h⟩ := ih hi
      exact ⟨_, by omega, .cons h1 h⟩

theorem sys_acc {ρ : Type} {clients : List (Prog Q V D ρ)} {s : Db Q V D × List (Task Q V D ρ)} {n : Nat}
    (h : SysInv body clients s) (hc : Costs body s.2 n) : Acc (fun b a => SysStep body a b) s := by
  induction n using Nat.strongRecOn generalizing s with
  | ind n ih =>
    constructor
    intro s' hs
    have h' := sysInv_step h hs
    cases hs with
    | @mk ts i t db e db' t' hi hs =>
      have hil : i < ts.length := (List.getElem?_eq_some_iff.1 hi).1
      have hlen := h.length
      simp only at hlen
      obtain ⟨p, hp⟩ : ∃ p, clients[i]? = some p := ⟨clients[i]'(by omega), by rw [List.getElem?_eq_getElem]⟩
      have hf := h.follows i p t hp hi
      obtain ⟨-, -, -, g4⟩ := step_eval hs h.good hf.inv
      obtain ⟨n', hn, hc'⟩ := costs_set (t' := t') hc hi fun o d n ht => by
        obtain ⟨d', n', hn, -, h⟩ := g4 _ _ _ ht
        exact ⟨_, _, _, hn, h⟩
      exact ih n' hn h' hc'

/-- A thread that has not finished can make a step. -/
theorem task_progress {α : Type} (db : Db Q V D) (t : Task Q V D α) (h1 : ∀ v, t ≠ .run (.ret v))
    (h2 : t ≠ .run .panic) : ∃ e db' t', Task.Step body db t e db' t' := by
  induction t with
  | run p =>
    cases p with
    | ret v => exact absurd rfl (h1 v)
    | panic => exact absurd rfl h2
    | emit d k => exact ⟨_, _, _, .emit⟩
    | ask q k =>
      cases hc : db.cache q with
      | none => exact ⟨_, _, _, .miss hc⟩
      | some v => exact ⟨_, _, _, .hit hc⟩
  | wait q ds t k ih =>
    by_cases hv : ∃ v, t = .run (.ret v)
    · obtain ⟨v, rfl⟩ := hv
      cases hc : db.cache q with
      | none => exact ⟨_, _, _, .store hc⟩
      | some v => exact ⟨_, _, _, .keep hc⟩
    · by_cases hp : t = .run .panic
      · subst hp; exact ⟨_, _, _, .panic⟩
      · obtain ⟨e, db', t', h⟩ := ih (fun v e => hv ⟨v, e⟩) hp
        exact ⟨_, _, _, .inner h⟩

theorem acc_no_chain {α : Type u} {R : α → α → Prop} {a : α} (h : Acc (fun b a => R a b) a) :
    ¬ ∃ s : Nat → α, s 0 = a ∧ ∀ n, R (s n) (s (n + 1)) := by
  induction h with
  | intro a _ ih =>
    rintro ⟨s, rfl, hs⟩
    exact ih _ (hs 0) ⟨fun n => s (n + 1), rfl, fun n => hs (n + 1)⟩

end Fall
