import Verif.Model.Db

/-!
Queries without a cache.
-/

namespace Fall.Spec

/-- `Eval body p o ds`: executing `p`, where each query that is asked is executed anew, gives `o`, or panics if
`o` is `none`, and reports `ds` itself, not counting what the queries report that it asks. -/
inductive Eval (body : (q : Q) → Prog Q V D (V q)) : {α : Type} → Prog Q V D α → Option α → List D → Prop where
  | ret : Eval body (.ret v) (some v) []
  | panic : Eval body .panic none []
  | emit : Eval body k o ds → Eval body (.emit d k) o (d :: ds)
  | ask : Eval body (body q) (some v) ds' → Eval body (k v) o ds → Eval body (.ask q k) o ds
  | ask_panic : Eval body (body q) none ds' → Eval body (.ask q k) none []

/-- The queries that are asked, directly or by other queries, when `p` is executed without a cache. -/
inductive Needs (body : (q : Q) → Prog Q V D (V q)) : {α : Type} → Prog Q V D α → Q → Prop where
  | emit : Needs body k q → Needs body (.emit d k) q
  | here : Needs body (.ask q k) q
  | nested : Needs body (body q) q' → Needs body (.ask q k) q'
  | later : Eval body (body q) (some v) ds → Needs body (k v) q' → Needs body (.ask q k) q'

/-- States reachable by steps of `R`. -/
inductive Reach {α : Type u} (R : α → α → Prop) : α → α → Prop where
  | refl : Reach R a a
  | step : Reach R a b → R b c → Reach R a c

end Fall.Spec
