/-!
Model of `lang/fall/src/analysis/db.rs`: analysis queries, answered from a cache or by running them.
-/

namespace Fall

/-- The body of a query, as it looks to the database: it reports diagnostics and asks other queries. `Q` are the
queries, `V q` the type of the answer of `q`, `D` the diagnostics.

* `lang/fall/src/analysis/db.rs` 87-91: `execute` of a query gets the database and a sink for diagnostics;
* `lang/fall/src/analysis/diagnostics.rs` 14-28: the sink appends to a vector;
* `lang/fall/src/analysis/db.rs` 55-74: `DB::get`.

That the body cannot look at the cache or at the diagnostics is visibility in Rust. `panic` is a panic. -/
inductive Prog (Q : Type) (V : Q → Type) (D : Type) (α : Type) : Type where
  | ret (v : α)
  | emit (d : D) (k : Prog Q V D α)
  | ask (q : Q) (k : V q → Prog Q V D α)
  | panic

namespace Prog

/-- Sequencing of statements in `execute`, `lang/fall/src/analysis/db.rs` 87-91. -/
def bind : Prog Q V D α → (α → Prog Q V D β) → Prog Q V D β
  | .ret v, f => f v
  | .emit d k, f => .emit d (k.bind f)
  | .ask q k, f => .ask q (fun v => (k v).bind f)
  | .panic, _ => .panic

instance : Monad (Prog Q V D) where
  pure := .ret
  bind := .bind

end Prog

/-- `lang/fall/src/analysis/db.rs` 12-27: the caches, one `HashMap` for each type of query, together as one
function, and the diagnostics. -/
structure Db (Q : Type) (V : Q → Type) (D : Type) where
  cache : (q : Q) → Option (V q)
  diags : List D

/-- `lang/fall/src/analysis/db.rs` 30-47. -/
def Db.new : Db Q V D := ⟨fun _ => none, []⟩

/-- `lang/fall/src/analysis/db.rs` 119-123: the vacant entry is filled. -/
def Db.store [DecidableEq Q] (db : Db Q V D) (q : Q) (v : V q) (ds : List D) : Db Q V D where
  cache q' := if h : q = q' then some (h ▸ v) else db.cache q'
  diags := db.diags ++ ds

/-- A thread: the stack of nested calls of `get`, `lang/fall/src/analysis/db.rs` 55-74 and 105-126.
`run p` executes the rest `p` of a body. In `wait q ds inner k` the query `q` is being executed by `inner`, has
reported `ds`, and the caller goes on with `k`. -/
inductive Task (Q : Type) (V : Q → Type) (D : Type) : Type → Type 1 where
  | run {α : Type} (p : Prog Q V D α) : Task Q V D α
  | wait {α : Type} (q : Q) (ds : List D) (inner : Task Q V D (V q)) (k : V q → Prog Q V D α) : Task Q V D α

/-- One step of a thread. `e` are the diagnostics it gives to the sink of the query that it executes.
A step is one critical section or one action of a single thread:

* `hit`, `miss`: `lang/fall/src/analysis/db.rs` 106-108; the lock of the cache is released at the end of line 108,
  before the body runs;
* `emit`: `lang/fall/src/analysis/diagnostics.rs` 14-28;
* `store`, `keep`: lines 117-125; the diagnostics are extended, and the value inserted, under the lock of the cache;
* `panic`: unwinding through line 114; no lock is held there.

Simplifications: extending the diagnostics and inserting the value, lines 121-122, is one step, although another
thread may read the diagnostics in between. -/
inductive Task.Step [DecidableEq Q] (body : (q : Q) → Prog Q V D (V q)) :
    {α : Type} → Db Q V D → Task Q V D α → List D → Db Q V D → Task Q V D α → Prop where
  | emit {α : Type} {db : Db Q V D} {d : D} {k : Prog Q V D α} : Step body db (.run (.emit d k)) [d] db (.run k)
  | hit {α : Type} {db : Db Q V D} {q : Q} {v : V q} {k : V q → Prog Q V D α} : db.cache q = some v →
      Step body db (.run (.ask q k)) [] db (.run (k v))
  | miss {α : Type} {db : Db Q V D} {q : Q} {k : V q → Prog Q V D α} : db.cache q = none →
      Step body db (.run (.ask q k)) [] db (.wait q [] (.run (body q)) k)
  | inner {α : Type} {db db' : Db Q V D} {q : Q} {ds e : List D} {t t' : Task Q V D (V q)}
      {k : V q → Prog Q V D α} : Step body db t e db' t' →
      Step body db (.wait q ds t k) [] db' (.wait q (ds ++ e) t' k)
  | store {α : Type} {db : Db Q V D} {q : Q} {ds : List D} {v : V q} {k : V q → Prog Q V D α} :
      db.cache q = none → Step body db (.wait q ds (.run (.ret v)) k) [] (db.store q v ds) (.run (k v))
  | keep {α : Type} {db : Db Q V D} {q : Q} {ds : List D} {v v' : V q} {k : V q → Prog Q V D α} :
      db.cache q = some v' → Step body db (.wait q ds (.run (.ret v)) k) [] db (.run (k v'))
  | panic {α : Type} {db : Db Q V D} {q : Q} {ds : List D} {k : V q → Prog Q V D α} :
      Step body db (.wait q ds (.run .panic) k) [] db (.run .panic)

/-- Several threads with one database (`lang/fall/src/analysis/mod.rs` 110-114: `Analysis` is `Sync`): any of
them makes a step. What a client itself would report has no sink and is dropped. -/
inductive SysStep [DecidableEq Q] (body : (q : Q) → Prog Q V D (V q)) :
    Db Q V D × List (Task Q V D ρ) → Db Q V D × List (Task Q V D ρ) → Prop where
  | mk : ts[i]? = some t → Task.Step body db t e db' t' → SysStep body (db, ts) (db', ts.set i t')

end Fall
