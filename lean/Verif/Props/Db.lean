import Verif.Lemmas.Db

/-!
C49: the answers of the analysis database.
-/

namespace Fall

open Spec

variable {Q : Type} {V : Q → Type} {D : Type} [DecidableEq Q]

/-- C49. Whatever the threads of an analysis ask, and in whatever order their steps happen: an answer is the one
that is computed without the cache, and a thread panics only if it panics without the cache. -/
theorem C49_answers (body : (q : Q) → Prog Q V D (V q)) (clients : List (Prog Q V D ρ)) (db : Db Q V D)
    (ts : List (Task Q V D ρ)) (h : Reach (SysStep body) (Db.new, clients.map .run) (db, ts)) :
    ts.length = clients.length ∧ ∀ (i : Nat) (p : Prog Q V D ρ), clients[i]? = some p →
      (∀ v, ts[i]? = some (.run (.ret v)) → ∃ ds, Eval body p (some v) ds) ∧
      (ts[i]? = some (.run .panic) → ∃ ds, Eval body p none ds) := by
  have hi := sysInv_reach (sysInv_init clients) h
  refine ⟨hi.length, fun i p hp => ⟨fun v hv => ?_, fun hv => ?_⟩⟩
  · exact (hi.follows i p _ hp hv).back _ _ _ (.run .ret)
  · exact (hi.follows i p _ hp hv).back _ _ _ (.run .panic)

/-- C49. At any time the cached answers are those that are computed without the cache, and the diagnostics are
those of the cached queries, each exactly once. -/
theorem C49_diagnostics (body : (q : Q) → Prog Q V D (V q)) (clients : List (Prog Q V D ρ)) (db : Db Q V D)
    (ts : List (Task Q V D ρ)) (h : Reach (SysStep body) (Db.new, clients.map .run) (db, ts)) :
    ∃ log : List (Q × List D), (log.map (·.1)).Nodup ∧ (∀ q, q ∈ log.map (·.1) ↔ ∃ v, db.cache q = some v) ∧
      (∀ q ds, (q, ds) ∈ log → ∃ v, db.cache q = some v ∧ Eval body (body q) (some v) ds) ∧
      db.diags = log.flatMap (·.2) := by
  have hi := sysInv_reach (sysInv_init clients) h
  obtain ⟨log, h1, h2, h3, h4⟩ := hi.logged
  refine ⟨log, h1, fun q => ?_, fun q ds hm => h3 _ hm, h4⟩
  rw [h2, Option.isSome_iff_exists]

/-- C49. When all threads are done, and none panicked, the cached queries are exactly those that are needed to
answer the clients without a cache. -/
theorem C49_complete (body : (q : Q) → Prog Q V D (V q)) (clients : List (Prog Q V D ρ)) (db : Db Q V D)
    (ts : List (Task Q V D ρ)) (h : Reach (SysStep body) (Db.new, clients.map .run) (db, ts))
    (hd : ∀ t ∈ ts, ∃ v, t = .run (.ret v)) (q : Q) :
    (∃ v, db.cache q = some v) ↔ ∃ p ∈ clients, Needs body p q := by
  have hi := sysInv_reach (sysInv_init clients) h
  rw [← Option.isSome_iff_exists]
  refine ⟨hi.cached q, ?_⟩
  rintro ⟨p, hp, hq⟩
  obtain ⟨i, hl, hp⟩ := List.getElem_of_mem hp
  have hlen := hi.length
  simp only at hlen
  have hp' : clients[i]? = some p := by rw [List.getElem?_eq_getElem hl, hp]
  obtain ⟨v, ht⟩ := hd (ts[i]'(by omega)) (List.getElem_mem _)
  have ht' : ts[i]? = some (.run (.ret v)) := by rw [List.getElem?_eq_getElem (by omega), ht]
  have hf := hi.follows i p _ hp' ht'
  obtain ⟨ds, he⟩ := hf.back _ _ _ (.run .ret)
  rcases hf.needs ⟨_, _, he⟩ q hq with h | h
  · exact h
  · cases h with | run h => cases h

/-- C49. The diagnostics, up to their order, do not depend on the order of the steps or on how the requests are
distributed over threads. -/
theorem C49_schedule (body : (q : Q) → Prog Q V D (V q)) (clients clients' : List (Prog Q V D ρ))
    (db db' : Db Q V D) (ts ts' : List (Task Q V D ρ))
    (h : Reach (SysStep body) (Db.new, clients.map .run) (db, ts))
    (h' : Reach (SysStep body) (Db.new, clients'.map .run) (db', ts'))
    (hd : ∀ t ∈ ts, ∃ v, t = .run (.ret v)) (hd' : ∀ t ∈ ts', ∃ v, t = .run (.ret v))
    (hn : ∀ q, (∃ p ∈ clients, Needs body p q) ↔ ∃ p ∈ clients', Needs body p q) :
    db.diags.Perm db'.diags := by
  obtain ⟨log, a1, a2, a3, a4⟩ := C49_diagnostics body clients db ts h
  obtain ⟨log', b1, b2, b3, b4⟩ := C49_diagnostics body clients' db' ts' h'
  have hkeys : ∀ q, q ∈ log.map (·.1) ↔ q ∈ log'.map (·.1) := by
    intro q
    rw [a2, b2, C49_complete body clients db ts h hd, C49_complete body clients' db' ts' h' hd', hn]
  have nd : ∀ l : List (Q × List D), (l.map (·.1)).Nodup → l.Nodup := by
    intro l h
    simp only [List.Nodup, List.pairwise_map] at h
    exact h.imp fun h e => h (congrArg _ e)
  have hval : ∀ q ds, (q, ds) ∈ log → (q, ds) ∈ log' := by
    intro q ds hm
    have := (hkeys q).1 (List.mem_map_of_mem (f := (·.1)) hm)
    rw [List.mem_map] at this
    obtain ⟨⟨q', ds'⟩, hm', rfl⟩ := this
    obtain ⟨v, -, e1⟩ := a3 _ _ hm
    obtain ⟨v', -, e2⟩ := b3 _ _ hm'
    obtain ⟨-, rfl⟩ := Eval.det e1 e2
    exact hm'
  have hval' : ∀ q ds, (q, ds) ∈ log' → (q, ds) ∈ log := by
    intro q ds hm
    have := (hkeys q).2 (List.mem_map_of_mem (f := (·.1)) hm)
    rw [List.mem_map] at this
    obtain ⟨⟨q', ds'⟩, hm', rfl⟩ := this
    obtain ⟨v, -, e1⟩ := b3 _ _ hm
    obtain ⟨v', -, e2⟩ := a3 _ _ hm'
    obtain ⟨-, rfl⟩ := Eval.det e1 e2
    exact hm'
  have hp : log.Perm log' := by
    rw [List.perm_ext_iff_of_nodup (nd _ a1) (nd _ b1)]
    exact fun ⟨q, ds⟩ => ⟨hval q ds, hval' q ds⟩
  rw [a4, b4]
  exact hp.flatMap_right _

/-- C49. If the requests can be answered without a cache, there is no infinite sequence of steps. -/
theorem C49_terminates (body : (q : Q) → Prog Q V D (V q)) (clients : List (Prog Q V D ρ))
    (hc : ∀ p ∈ clients, ∃ o ds, Eval body p o ds) :
    ¬ ∃ s : Nat → Db Q V D × List (Task Q V D ρ), s 0 = (Db.new, clients.map .run) ∧
      ∀ n, SysStep body (s n) (s (n + 1)) := by
  apply acc_no_chain
  have hcost : ∃ n, Costs body (clients.map .run) n := by
    induction clients with
    | nil => exact ⟨0, .nil⟩
    | cons p ps ih =>
      obtain ⟨n, h⟩ := ih fun p hp => hc p (List.mem_cons_of_mem _ hp)
      obtain ⟨o, ds, he⟩ := hc p (by simp)
      obtain ⟨m, he⟩ := Eval.cost he
      exact ⟨_, .cons (.run he) h⟩
  obtain ⟨n, hcost⟩ := hcost
  exact sys_acc (sysInv_init clients) hcost

/-- C49. No thread waits for another one: if a thread is not done, it can make a step. -/
theorem C49_progress (body : (q : Q) → Prog Q V D (V q)) (db : Db Q V D) (ts : List (Task Q V D ρ))
    (i : Nat) (t : Task Q V D ρ) (hi : ts[i]? = some t) (h1 : ∀ v, t ≠ .run (.ret v)) (h2 : t ≠ .run .panic) :
    ∃ db' t', SysStep body (db, ts) (db', ts.set i t') := by
  obtain ⟨e, db', t', h⟩ := task_progress (body := body) db t h1 h2
  exact ⟨db', t', .mk hi h⟩

/-- Two queries for the examples: `true` reports 7 and asks `false`, which reports 9 and answers 5. -/
def sampleBody : (q : Bool) → Prog Bool (fun _ => Nat) Nat Nat
  | true => .emit 7 (.ask false fun v => .ret (v + 1))
  | false => .emit 9 (.ret 5)

/-- Two threads that both ask `false`. Both miss the cache, only one of them stores the answer. -/
theorem sample_run : Reach (SysStep sampleBody)
    (Db.new, [Prog.ask false fun v => .ret v, Prog.ask false fun v => .ret (v + 10)].map .run)
    (Db.new.store false 5 [9], [.run (.ret 5), .run (.ret 15)]) := by
  refine .step (.step (.step (.step (.step (.step .refl
    (.mk (i := 0) rfl (.miss rfl))) (.mk (i := 1) rfl (.miss rfl))) (.mk (i := 1) rfl (.inner .emit)))
    (.mk (i := 0) rfl (.inner .emit))) (.mk (i := 0) rfl (.store rfl))) ?_
  exact .mk (i := 1) (t := .wait false [9] (.run (.ret 5)) _) rfl (.keep (v' := 5) (by decide))

example : ∃ ds, Eval sampleBody (Prog.ask false fun v => .ret (v + 10)) (some 15) ds :=
  ((C49_answers _ _ _ _ sample_run).2 1 _ rfl).1 15 rfl

example : (Db.new.store (V := fun _ => Nat) false 5 [9]).diags = [9] := rfl

example : Needs sampleBody (Prog.ask true fun v => .ret v) false := .nested (.emit .here)

example : Eval sampleBody (Prog.ask true fun v => .ret v) (some 6) [] :=
  .ask (.emit (.ask (.emit .ret) .ret)) .ret

end Fall
