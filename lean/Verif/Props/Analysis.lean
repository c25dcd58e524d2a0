import Verif.Props.AnalysisSample
import Verif.Props.Db

/-! Properties of the analysis of grammars: C50, C58, C59, C61, C62 and C63. -/

namespace Fall
open Spec AProg

/-! ## C58 queries end -/

/-- C58. Every query has an answer or panics, in whatever tree: queries that ask each other do not go round in
circles. -/
theorem C58_ends (f : File UInt8) (q : Query) : ∃ o ds, Eval (analysisBody f) (analysisBody f q) o ds :=
  ends_query q

example : Eval (analysisBody grammarFile) (resolveRef grammarFile 52) (some (some (.param 44))) [] :=
  runFuel_eval (n := 100) (by decide +kernel)

/-- C58. Threads that use the cached analysis of a file together, however their steps are interleaved, cannot go
on for ever. -/
theorem C58_terminates (f : File UInt8) (clients : List (AProg ρ)) :
    ¬ ∃ s : Nat → Db Query Value Diagnostic × List (Task Query Value Diagnostic ρ),
      s 0 = (Db.new, clients.map .run) ∧ ∀ n, SysStep (analysisBody f) (s n) (s (n + 1)) :=
  C49_terminates (analysisBody f) clients fun p _ => ends_all p

example : ∃ s, SysStep (analysisBody grammarFile)
    (Db.new, [collectRequests grammarFile, get .unusedRules].map .run) s := by
  obtain ⟨db, t, h⟩ := C49_progress (analysisBody grammarFile) Db.new
    ([collectRequests grammarFile, get .unusedRules].map .run) 1 (.run (get .unusedRules)) rfl
    (by intro v h; cases h) (by intro h; cases h)
  exact ⟨_, h⟩

theorem reach_cons {R : α → α → Prop} {a b c : α} (h : R a b) (h' : Reach R b c) : Reach R a c := by
  induction h' with
  | refl => exact .step .refl h
  | step _ hs ih => exact .step ih hs

/-- C58. The threads can always run to their ends. -/
theorem C58_finishes (f : File UInt8) (clients : List (AProg ρ)) :
    ∃ db ts, Reach (SysStep (analysisBody f)) (Db.new, clients.map .run) (db, ts) ∧
      ∀ t ∈ ts, (∃ v, t = .run (.ret v)) ∨ t = .run .panic := by
  have hacc : Acc (fun a b => SysStep (analysisBody f) b a) (Db.new, clients.map .run) := by
    have hcost : ∃ n, Costs (analysisBody f) (clients.map .run) n := by
      induction clients with
      | nil => exact ⟨0, .nil⟩
      | cons p ps ih =>
        obtain ⟨n, h⟩ := ih
        obtain ⟨o, ds, he⟩ := ends_all (f := f) p
        obtain ⟨m, he⟩ := Eval.cost he
        exact ⟨_, .cons (.run he) h⟩
    obtain ⟨n, hcost⟩ := hcost
    exact sys_acc (sysInv_init clients) hcost
  generalize (Db.new, clients.map Task.run) = s at hacc
  induction hacc with
  | intro s _ ih =>
    obtain ⟨db, ts⟩ := s
    by_cases h : ∀ t ∈ ts, (∃ v, t = .run (.ret v)) ∨ t = .run .panic
    · exact ⟨db, ts, .refl, h⟩
    · simp only [Classical.not_forall, not_or] at h
      obtain ⟨t, ht, h1, h2⟩ := h
      obtain ⟨i, hi, e⟩ := List.getElem_of_mem ht
      obtain ⟨db', t', hs⟩ := C49_progress (analysisBody f) db ts i t (by rw [List.getElem?_eq_getElem hi, e])
        (fun v hv => h1 ⟨v, hv⟩) h2
      obtain ⟨db2, ts2, g1, g2⟩ := ih _ hs
      exact ⟨db2, ts2, reach_cons hs g1, g2⟩

/-- C58. Threads that do not panic on their own can run to their ends together, each with the same answer. -/
theorem C58_together (f : File UInt8) (clients : List (AProg ρ)) (vs : List ρ) (hl : vs.length = clients.length)
    (h : ∀ (i : Nat) (p : AProg ρ) (v : ρ), clients[i]? = some p → vs[i]? = some v →
      ∃ ds, Eval (analysisBody f) p (some v) ds) :
    ∃ db, Reach (SysStep (analysisBody f)) (Db.new, clients.map .run) (db, vs.map fun v => .run (.ret v)) := by
  obtain ⟨db, ts, h1, h2⟩ := C58_finishes f clients
  obtain ⟨hl', ha⟩ := C49_answers _ _ _ _ h1
  have : ts = vs.map fun v => .run (.ret v) := by
    refine List.ext_getElem (by simp [hl, hl']) fun i hi hi' => ?_
    rw [List.length_map] at hi'
    have hp : clients[i]? = some (clients[i]'(by omega)) := List.getElem?_eq_getElem (by omega)
    obtain ⟨ds, he⟩ := h i _ vs[i] hp (List.getElem?_eq_getElem hi')
    rw [List.getElem_map]
    rcases h2 ts[i] (List.getElem_mem hi) with ⟨v, hv⟩ | hv
    · obtain ⟨ds', he'⟩ := (ha i _ hp).1 v (by rw [List.getElem?_eq_getElem hi, hv])
      have := (Eval.det he' he).1
      cases this
      exact hv
    · obtain ⟨ds', he'⟩ := (ha i _ hp).2 (by rw [List.getElem?_eq_getElem hi, hv])
      have := (Eval.det he' he).1
      cases this
  exact ⟨db, this ▸ h1⟩

/-- A way to run the collection of diagnostics of the sample grammar to its end. -/
theorem grammar_run : ∃ db, Reach (SysStep (analysisBody grammarFile))
    (Db.new, [collectRequests grammarFile].map .run) (db, [.run (.ret ())]) := by
  refine C58_together grammarFile [collectRequests grammarFile] [()] (by simp) fun i p v hp _ => ?_
  match i with
  | 0 =>
    rw [List.getElem?_cons_zero, Option.some.injEq] at hp
    exact ⟨_, hp ▸ grammar_collect⟩
  | i + 1 => cases hp

example : ∃ db ts, Reach (SysStep (analysisBody grammarFile))
    (Db.new, [collectRequests grammarFile].map .run) (db, ts) ∧ ts = [.run (.ret ())] := by
  obtain ⟨db, h⟩ := grammar_run
  exact ⟨db, _, h, rfl⟩

/-! ## C50 name resolution -/

/-- What is cached is what a query computes. -/
theorem cached_eval {f : File UInt8} {clients : List (AProg ρ)} {db : Db Query Value Diagnostic}
    {ts : List (Task Query Value Diagnostic ρ)}
    (h : Reach (SysStep (analysisBody f)) (Db.new, clients.map .run) (db, ts)) {q : Query} {v : Value q}
    (hv : db.cache q = some v) : ∃ ds, Eval (analysisBody f) (analysisBody f q) (some v) ds := by
  obtain ⟨log, -, h2, h3, -⟩ := C49_diagnostics _ _ _ _ h
  obtain ⟨⟨q', ds⟩, hm, rfl⟩ := List.mem_map.1 ((h2 q).2 ⟨v, hv⟩)
  obtain ⟨v', g1, g2⟩ := h3 _ _ hm
  simp only at hv
  rw [hv, Option.some.injEq] at g1
  exact ⟨ds, g1 ▸ g2⟩

/-- C50. A reference is resolved to the parameter of the enclosing rule with its name, else to the first rule of
this name, else to the last token of this name, else to nothing. An error is reported exactly if it means nothing
and is not the name of a context. -/
theorem C50_resolve (f : File UInt8) (hf : ConsistentFile f) (ref : NodeId) (hn : IsNode f ref) (k : Option RefKind)
    (ds : List Diagnostic) (h : Eval (analysisBody f) (resolveRef f ref) (some k) ds) :
    ∃ s rule, RefName f ref s ∧ EnclosingRule f ref rule ∧ Means f rule s k ∧
      ((k = none ∧ ¬ NamesContext f ref ∧ Reports f true "Unresolved reference" [ref] ds) ∨
       ((k ≠ none ∨ NamesContext f ref) ∧ ds = [])) :=
  resolveRef_eval hf hn h

example : ConsistentFile grammarFile ∧ IsNode grammarFile 33 ∧ IsNode grammarFile 85 ∧ IsNode grammarFile 88 ∧
    Eval (analysisBody grammarFile) (resolveRef grammarFile 33) (some none)
      [⟨⟨41, 42⟩, true, "Unresolved reference"⟩] ∧
    Eval (analysisBody grammarFile) (resolveRef grammarFile 85) (some (some (.rule 14))) [] ∧
    Eval (analysisBody grammarFile) (resolveRef grammarFile 88) (some (some (.token 6))) [] ∧
    Eval (analysisBody grammarFile) (resolveRef grammarFile 59) (some none) [] :=
  ⟨grammarFile_consistent, by unfold IsNode; decide +kernel, by unfold IsNode; decide +kernel,
    by unfold IsNode; decide +kernel, runFuel_eval (n := 100) (by decide +kernel),
    runFuel_eval (n := 100) (by decide +kernel), runFuel_eval (n := 100) (by decide +kernel),
    runFuel_eval (n := 100) (by decide +kernel)⟩

/-- C50. What a reference refers to is determined by the tree. -/
theorem C50_unique (f : File UInt8) (hf : ConsistentFile f) (ref : NodeId) (k k' : Option RefKind)
    (h : RefersTo f ref k) (h' : RefersTo f ref k') : k = k' :=
  refersTo_unique hf h h'

example : RefersTo grammarFile 85 (some (.rule 14)) := by
  obtain ⟨s, rule, h1, h2, h3, -⟩ := C50_resolve grammarFile grammarFile_consistent 85
    (by unfold IsNode; decide +kernel) _ _ (runFuel_eval (n := 100) (by decide +kernel) :
      Eval (analysisBody grammarFile) (resolveRef grammarFile 85) (some (some (.rule 14))) [])
  exact ⟨s, rule, h1, h2, h3⟩

/-- C50. Whatever was asked before and by whatever threads, a reference is answered with what it refers to. -/
theorem C50_history (f : File UInt8) (hf : ConsistentFile f) (clients : List (AProg (Option RefKind)))
    (db : Db Query Value Diagnostic) (ts : List (Task Query Value Diagnostic (Option RefKind)))
    (h : Reach (SysStep (analysisBody f)) (Db.new, clients.map .run) (db, ts)) (i : Nat) (ref : NodeId)
    (hn : IsNode f ref) (hi : clients[i]? = some (get (.resolveRef ref))) (k : Option RefKind)
    (hk : ts[i]? = some (.run (.ret k))) : RefersTo f ref k := by
  obtain ⟨ds, he⟩ := ((C49_answers _ _ _ _ h).2 i _ hi).1 k hk
  cases he with
  | ask h1 h2 =>
    cases h2
    obtain ⟨s, rule, g1, g2, g3, -⟩ := resolveRef_eval hf hn h1
    exact ⟨s, rule, g1, g2, g3⟩

/-- The reference of the sample grammar to its first rule, asked for twice. -/
theorem grammar_run_ref : ∃ db, Reach (SysStep (analysisBody grammarFile))
    (Db.new, [(get (.resolveRef 33) : AProg (Option RefKind)), get (.resolveRef 85)].map .run)
    (db, [.run (.ret none), .run (.ret (some (.rule 14)))]) := by
  refine C58_together grammarFile [(get (.resolveRef 33) : AProg (Option RefKind)), get (.resolveRef 85)]
    [none, some (.rule 14)] rfl fun i p v hp hv => ?_
  have e1 : Eval (analysisBody grammarFile) (resolveRef grammarFile 33) (some none)
      [⟨⟨41, 42⟩, true, "Unresolved reference"⟩] := runFuel_eval (n := 100) (by decide +kernel)
  have e2 : Eval (analysisBody grammarFile) (resolveRef grammarFile 85) (some (some (.rule 14))) [] :=
    runFuel_eval (n := 100) (by decide +kernel)
  match i with
  | 0 =>
    cases hp
    cases hv
    exact ⟨_, .ask e1 .ret⟩
  | 1 =>
    cases hp
    cases hv
    exact ⟨_, .ask e2 .ret⟩
  | i + 2 => cases hp

example : ∃ db ts, Reach (SysStep (analysisBody grammarFile))
    (Db.new, [(get (.resolveRef 33) : AProg (Option RefKind)), get (.resolveRef 85)].map .run) (db, ts) ∧
    ts[1]? = some (.run (.ret (some (.rule 14)))) := by
  obtain ⟨db, h⟩ := grammar_run_ref
  exact ⟨db, _, h, rfl⟩

/-! ## C61 calls and contexts -/

/-- C61. The contexts of a file are numbered in the order of their names. A warning is reported for those that only
one call tests or changes. -/
theorem C61_contexts (f : File UInt8) (hf : ConsistentFile f) (ctxs : List (List UInt8)) (ds : List Diagnostic)
    (h : Eval (analysisBody f) (allContexts f) (some ctxs) ds) :
    Contexts f ctxs ∧ ∃ uses : List (List UInt8 × NodeId), (uses.map (·.1)).Pairwise (· < ·) ∧
      (∀ s c, (s, c) ∈ uses ↔ OnlyUse f s c) ∧
      ds.map some = uses.map fun u =>
        (f.range u.2).map fun r => ⟨r, false, s!"Context `{showBytes u.1}` is used only once"⟩ :=
  allContexts_eval hf h

example : Eval (analysisBody grammarFile) (allContexts grammarFile) (some [[99]])
    [⟨⟨59, 70⟩, false, "Context `c` is used only once"⟩] := runFuel_eval (n := 100) (by decide +kernel)

/-- C61. A call means what its name says: one of the built-in functions, else the rule of that name if it has
parameters; errors are reported for wrong arguments and unknown names. -/
theorem C61_calls (f : File UInt8) (hf : ConsistentFile f) (call : NodeId) (hc : OfType f 140 call)
    (k : Option CallKind) (ds : List Diagnostic) (h : Eval (analysisBody f) (resolveCall f call) (some k) ds) :
    ∃ name args, Ident f call name ∧ ChildrenWith f call (IsExpr f) args ∧ CallMeans f call args name k ds :=
  resolveCall_eval hf hc h

example : OfType grammarFile 140 25 ∧ OfType grammarFile 140 55 ∧
    Eval (analysisBody grammarFile) (resolveCall grammarFile 25) (some (some (.ruleCall 38 [(44, 29)]))) [] ∧
    Eval (analysisBody grammarFile) (resolveCall grammarFile 55) (some (some (.isIn 0))) [] :=
  ⟨by unfold OfType; decide +kernel, by unfold OfType; decide +kernel,
    runFuel_eval (n := 100) (by decide +kernel), runFuel_eval (n := 100) (by decide +kernel)⟩

/-- C61. What a call means, and what is reported for it, is determined by the tree. -/
theorem C61_unique (f : File UInt8) (hf : ConsistentFile f) (call : NodeId) (hc : IsNode f call)
    (name name' : List UInt8) (args args' : List NodeId) (k k' : Option CallKind) (ds ds' : List Diagnostic)
    (h1 : Ident f call name) (h2 : ChildrenWith f call (IsExpr f) args) (h3 : CallMeans f call args name k ds)
    (h1' : Ident f call name') (h2' : ChildrenWith f call (IsExpr f) args')
    (h3' : CallMeans f call args' name' k' ds') : k = k' ∧ ds = ds' := by
  cases childrenWith_unique hf hc h2 h2'
  exact callMeans_unique hf h3 h3' (labelled_unique h1 h1')

example : ∃ name args, Ident grammarFile 25 name ∧ ChildrenWith grammarFile 25 (IsExpr grammarFile) args ∧
    CallMeans grammarFile 25 args name (some (.ruleCall 38 [(44, 29)])) [] :=
  C61_calls grammarFile grammarFile_consistent 25 (by unfold OfType; decide +kernel) _ _
    (runFuel_eval (n := 100) (by decide +kernel))

/-! ## C62 operator rules -/

/-- C62. A rule with an operator attribute is read as an atom, or as a prefix, postfix or binary operator with its
priority, and errors are reported for bodies of another shape. -/
theorem C62_operator (f : File UInt8) (hf : ConsistentFile f) (rule : NodeId) (hn : IsNode f rule)
    (k : Option PrattVariant) (ds : List Diagnostic)
    (h : Eval (analysisBody f) (prattVariant f rule) (some k) ds) : OperatorMeans f rule k ds :=
  prattVariant_eval hf hn h

example : IsNode grammarFile 65 ∧
    Eval (analysisBody grammarFile) (prattVariant grammarFile 65) (some (some (.bin 88 1))) [] :=
  ⟨by unfold IsNode; decide +kernel, runFuel_eval (n := 100) (by decide +kernel)⟩

/-- C62. What an operator rule means, and what is reported for it, is determined by the tree. -/
theorem C62_unique (f : File UInt8) (hf : ConsistentFile f) (rule : NodeId) (k k' : Option PrattVariant)
    (ds ds' : List Diagnostic) (h : OperatorMeans f rule k ds) (h' : OperatorMeans f rule k' ds') :
    k = k' ∧ ds = ds' :=
  operatorMeans_unique hf h h'

example : OperatorMeans grammarFile 65 (some (.bin 88 1)) [] :=
  C62_operator grammarFile grammarFile_consistent 65 (by unfold IsNode; decide +kernel) _ _
    (runFuel_eval (n := 100) (by decide +kernel))

/-! ## C63 traits and methods -/

/-- C63. The traits of a node definition are those that the names after the colon refer to, in their order; the
other names are reported. -/
theorem C63_traits (f : File UInt8) (hf : ConsistentFile f) (node : NodeId) (hn : IsNode f node) (ts : List NodeId)
    (ds : List Diagnostic) (h : Eval (analysisBody f) (astNodeTraits f node) (some ts) ds) :
    ∃ ids bad, NamesAfterColon f node ids ∧ TraitsOf f ids ts bad ∧ Reports f true "Unresolved trait" bad ds :=
  astNodeTraits_eval hf hn h

example : IsNode grammarFile 101 ∧ Eval (analysisBody grammarFile) (astNodeTraits grammarFile 101) (some [123])
    [⟨⟨119, 120⟩, true, "Unresolved trait"⟩] :=
  ⟨by unfold IsNode; decide +kernel, runFuel_eval (n := 100) (by decide +kernel)⟩

/-- C63. A method selects the nodes of a definition, of a class, or tokens, or their texts. Nothing is reported. -/
theorem C63_methods (f : File UInt8) (hf : ConsistentFile f) (m : NodeId) (hn : IsNode f m) (k : Option MethodKind)
    (ds : List Diagnostic) (h : Eval (analysisBody f) (resolveMethod f m) (some k) ds) :
    MethodMeans f m k ∧ ds = [] :=
  resolveMethod_eval hf hn h

example : IsNode grammarFile 114 ∧
    Eval (analysisBody grammarFile) (resolveMethod grammarFile 114) (some (some (.token 6 .optional))) [] :=
  ⟨by unfold IsNode; decide +kernel, runFuel_eval (n := 100) (by decide +kernel)⟩

/-- C63. What a method selects is determined by the tree. -/
theorem C63_unique (f : File UInt8) (m : NodeId) (k k' : Option MethodKind) (h : MethodMeans f m k)
    (h' : MethodMeans f m k') : k = k' :=
  methodMeans_unique h h'

example : MethodMeans grammarFile 114 (some (.token 6 .optional)) :=
  (C63_methods grammarFile grammarFile_consistent 114 (by unfold IsNode; decide +kernel) _ []
    (runFuel_eval (n := 100) (by decide +kernel))).1

/-! ## C59 diagnostics -/

/-- C59. Exactly the names of rules that an earlier rule has are reported as duplicate rules, in their order; the
first rule of a name is the one that is found. -/
theorem C59_duplicate_rules (f : File UInt8) (hf : ConsistentFile f) (all : List (List UInt8 × NodeId))
    (ds : List Diagnostic) (h : Eval (analysisBody f) (allSynRules f) (some all) ds) :
    (∀ s r, all.lookup s = some r ↔ RuleNamed f s r) ∧
    ∃ is, (∀ i, i ∈ is ↔ DuplicateRule f i) ∧ is.Pairwise (Before f) ∧ Reports f true "Duplicate rule" is ds :=
  allSynRules_eval hf h

example : Eval (analysisBody grammarFile) (allSynRules grammarFile) (some [([101], 65), ([102], 38), ([115], 14)]) [] :=
  runFuel_eval (n := 100) (by decide +kernel)

/-- C59. Exactly the tokens whose name an earlier token has are reported as duplicate tokens, in their order; the
last token is the one that is found. -/
theorem C59_duplicate_tokens (f : File UInt8) (hf : ConsistentFile f) (all : List (List UInt8 × NodeId))
    (ds : List Diagnostic) (h : Eval (analysisBody f) (allLexRules f) (some all) ds) :
    (∀ s r, all.lookup s = some r ↔ TokenNamed f s r) ∧
    ∃ is, (∀ i, i ∈ is ↔ DuplicateToken f i) ∧ is.Pairwise (Before f) ∧ Reports f true "Duplicate token" is ds :=
  allLexRules_eval hf h

example : Eval (analysisBody grammarFile) (allLexRules grammarFile) (some [([39, 97, 39], 6)]) [] :=
  runFuel_eval (n := 100) (by decide +kernel)

/-- C59. Exactly the names of rules that are not used are reported as unused, in their order. -/
theorem C59_unused (f : File UInt8) (hf : ConsistentFile f) (ds : List Diagnostic)
    (h : Eval (analysisBody f) (unusedRules f) (some ()) ds) :
    ∃ is, (∀ i, i ∈ is ↔ UnusedName f i) ∧ is.Pairwise (Before f) ∧ Reports f false "Unused rule" is ds :=
  unusedRules_eval hf h

example : Eval (analysisBody grammarFile) (unusedRules grammarFile) (some ())
    [⟨⟨88, 89⟩, false, "Unused rule"⟩] := runFuel_eval (n := 100) (by decide +kernel)

/-- Which queries are answered when all threads are done. -/
theorem cached_asked {f : File UInt8} (hf : ConsistentFile f) {db : Db Query Value Diagnostic}
    {ts : List (Task Query Value Diagnostic Unit)}
    (h : Reach (SysStep (analysisBody f)) (Db.new, [collectRequests f].map .run) (db, ts))
    (hd : ∀ t ∈ ts, ∃ v, t = .run (.ret v)) (q : Query) : (∃ v, db.cache q = some v) ↔ Asked f q := by
  rw [C49_complete _ _ _ _ h hd]
  simp only [List.mem_singleton, exists_eq_left]
  refine ⟨asked_collectRequests hf, ?_⟩
  obtain ⟨hl, ha⟩ := C49_answers _ _ _ _ h
  match ts, hl with
  | [t], _ =>
    obtain ⟨⟨⟩, rfl⟩ := hd t (by simp)
    obtain ⟨ds, he⟩ := (ha 0 _ rfl).1 () rfl
    exact collectRequests_needs hf he

theorem asked_typed {f : File UInt8} {q : Query} (h : Asked f q) : QueryTyped f q := by
  cases q with
  | resolveMethod => exact h.elim
  | _ => first | exact h | trivial

/-- C59. When the diagnostics of a file have been collected, possibly while other threads use the same analysis,
exactly the problems of the file are reported. Rules of the same name and contexts that are used only once are
reported exactly if somebody asked for the rules or the contexts of the file. -/
theorem C59_reported (f : File UInt8) (hf : ConsistentFile f) (clients : List (AProg Unit))
    (hc : collectRequests f ∈ clients) (db : Db Query Value Diagnostic)
    (ts : List (Task Query Value Diagnostic Unit))
    (h : Reach (SysStep (analysisBody f)) (Db.new, clients.map .run) (db, ts))
    (hd : ∀ t ∈ ts, ∃ v, t = .run (.ret v))
    (hq : ∀ p ∈ clients, ∀ q, Needs (analysisBody f) p q → QueryTyped f q) (d : Diagnostic) :
    d ∈ db.diags ↔ Problem f d ∨
      ((∃ all, db.cache .allSynRules = some all) ∧ ReportAt f true "Duplicate rule" (DuplicateRule f) d) ∨
      ((∃ ctxs, db.cache .allContexts = some ctxs) ∧ LonelyContext f d) := by
  obtain ⟨log, -, h2, h3, h4⟩ := C49_diagnostics _ _ _ _ h
  have hcached := C49_complete _ _ _ _ h hd
  have hin : ∀ {q : Query} {v v' : Value q} {ds : List Diagnostic}, db.cache q = some v' →
      Eval (analysisBody f) (analysisBody f q) (some v) ds → ∀ d ∈ ds, d ∈ db.diags := by
    intro q v v' ds hv he d hd
    obtain ⟨⟨q', ds'⟩, hm, rfl⟩ := List.mem_map.1 ((h2 q).2 ⟨v', hv⟩)
    obtain ⟨w, g1, g2⟩ := h3 _ _ hm
    have := (Eval.det g2 he).2
    subst this
    rw [h4, List.mem_flatMap]
    exact ⟨_, hm, hd⟩
  constructor
  · intro hmem
    rw [h4, List.mem_flatMap] at hmem
    obtain ⟨⟨q, ds⟩, hm, hmem⟩ := hmem
    obtain ⟨v, hv, he⟩ := h3 _ _ hm
    obtain ⟨p, hp, hn⟩ := (hcached q).1 ⟨v, hv⟩
    rcases query_reports hf (hq p hp q hn) he hmem with h | ⟨rfl, h⟩ | ⟨rfl, h⟩
    · exact .inl h
    · exact .inr (.inl ⟨⟨v, hv⟩, h⟩)
    · exact .inr (.inr ⟨⟨v, hv⟩, h⟩)
  · obtain ⟨hl, ha⟩ := C49_answers _ _ _ _ h
    obtain ⟨i, hil, hi⟩ := List.getElem_of_mem hc
    have hi' : clients[i]? = some (collectRequests f) := by rw [List.getElem?_eq_getElem hil, hi]
    obtain ⟨⟨⟩, ht⟩ := hd (ts[i]'(by omega)) (List.getElem_mem _)
    obtain ⟨ds0, he0⟩ := (ha i _ hi').1 () (by rw [List.getElem?_eq_getElem (by omega), ht])
    have hall : ∀ q, Asked f q → ∃ v, db.cache q = some v := fun q hq' =>
      (hcached q).2 ⟨_, hc, collectRequests_needs hf he0 hq'⟩
    rintro (hp | ⟨⟨v, hv⟩, n, r, hn, hr, rfl⟩ | ⟨⟨v, hv⟩, s, c, r, hn, hr, rfl⟩)
    · obtain ⟨q, v, ds, g1, g2, g3⟩ := problem_reported hf hp fun q hq' => by
        obtain ⟨v, hv⟩ := hall q hq'
        obtain ⟨ds, he⟩ := cached_eval h hv
        exact ⟨v, ds, he⟩
      obtain ⟨v', hv'⟩ := hall q g1
      exact hin hv' g2 d g3
    · obtain ⟨ds, he⟩ := cached_eval h hv
      obtain ⟨-, is, g1, -, g2⟩ := allSynRules_eval hf he
      exact hin hv he _ ((reports_mem g2 _).2 ⟨n, (g1 n).2 hn, r, hr, rfl⟩)
    · obtain ⟨ds, he⟩ := cached_eval h hv
      obtain ⟨-, uses, -, g1, g2⟩ := allContexts_eval hf he
      refine hin hv he _ ?_
      have : some (⟨r, false, s!"Context `{showBytes s}` is used only once"⟩ : Diagnostic) ∈ ds.map some := by
        rw [g2, List.mem_map]
        exact ⟨(s, c), (g1 s c).2 hn, by simp [hr]⟩
      obtain ⟨d', hd', e⟩ := List.mem_map.1 this
      cases e
      exact hd'

/-- C59. If only the diagnostics of a file are asked for, exactly its problems are reported. Rules of the same name
are reported only if some name is looked up among the rules, and contexts that are used only once only if
some call is complete that uses a context. -/
theorem C59_alone (f : File UInt8) (hf : ConsistentFile f) (db : Db Query Value Diagnostic)
    (ts : List (Task Query Value Diagnostic Unit))
    (h : Reach (SysStep (analysisBody f)) (Db.new, [collectRequests f].map .run) (db, ts))
    (hd : ∀ t ∈ ts, ∃ v, t = .run (.ret v)) (d : Diagnostic) :
    d ∈ db.diags ↔ Problem f d ∨
      (LooksUpRule f ∧ ReportAt f true "Duplicate rule" (DuplicateRule f) d) ∨ (UsesContext f ∧ LonelyContext f d) := by
  rw [C59_reported f hf [collectRequests f] (by simp) db ts h hd
    (fun p hp q hq => by
      rw [List.mem_singleton] at hp
      subst hp
      exact asked_typed (asked_collectRequests hf hq)) d,
    cached_asked hf h hd, cached_asked hf h hd]
  rfl

example : ∃ db, Reach (SysStep (analysisBody grammarFile)) (Db.new, [collectRequests grammarFile].map .run)
      (db, [.run (.ret ())]) ∧
    (⟨⟨41, 42⟩, true, "Unresolved reference"⟩ : Diagnostic) ∈ db.diags ∧
    (⟨⟨88, 89⟩, false, "Unused rule"⟩ : Diagnostic) ∈ db.diags := by
  obtain ⟨db, h⟩ := grammar_run
  refine ⟨db, h, ?_, ?_⟩
  · rw [C59_alone grammarFile grammarFile_consistent db _ h (by simp)]
    have he : Eval (analysisBody grammarFile) (resolveRef grammarFile 33) (some none)
      [⟨⟨41, 42⟩, true, "Unresolved reference"⟩] := runFuel_eval (n := 100) (by decide +kernel)
    have := query_reports grammarFile_consistent (q := .resolveRef 33)
      (by show OfType grammarFile 135 33; unfold OfType; decide +kernel) he (List.mem_singleton.2 rfl)
    rcases this with h | ⟨h, -⟩ | ⟨h, -⟩
    · exact .inl h
    · cases h
    · cases h
  · rw [C59_alone grammarFile grammarFile_consistent db _ h (by simp)]
    have he : Eval (analysisBody grammarFile) (unusedRules grammarFile) (some ())
      [⟨⟨88, 89⟩, false, "Unused rule"⟩] := runFuel_eval (n := 100) (by decide +kernel)
    have := query_reports grammarFile_consistent (q := .unusedRules) trivial he (List.mem_singleton.2 rfl)
    rcases this with h | ⟨h, -⟩ | ⟨h, -⟩
    · exact .inl h
    · cases h
    · cases h

/-- The grammar `rule a{}rule a{}`. -/
def doubleFile : File UInt8 :=
  ⟨ascii "rule a{}rule a{}",
   [⟨131, none, [1, 8], ⟨0, 16⟩⟩,
    ⟨132, some 0, [2, 3, 4, 5], ⟨0, 8⟩⟩, ⟨106, some 1, [], ⟨0, 4⟩⟩, ⟨100, some 1, [], ⟨4, 5⟩⟩,
    ⟨130, some 1, [], ⟨5, 6⟩⟩, ⟨137, some 1, [6, 7], ⟨6, 8⟩⟩, ⟨119, some 5, [], ⟨6, 7⟩⟩, ⟨120, some 5, [], ⟨7, 8⟩⟩,
    ⟨132, some 0, [9, 10, 11, 12], ⟨8, 16⟩⟩, ⟨106, some 8, [], ⟨8, 12⟩⟩, ⟨100, some 8, [], ⟨12, 13⟩⟩,
    ⟨130, some 8, [], ⟨13, 14⟩⟩, ⟨137, some 8, [13, 14], ⟨14, 16⟩⟩, ⟨119, some 12, [], ⟨14, 15⟩⟩,
    ⟨120, some 12, [], ⟨15, 16⟩⟩]⟩

/-- The tree of the grammar `rule a{}rule a{}`, below the root. -/
def doubleForest : Forest :=
  let rule (rest : Forest) : Forest := .node 132 (.leaf 106 4 (.leaf 100 1 (.leaf 130 1
    (.node 137 (.leaf 119 1 (.leaf 120 1 .nil)) .nil)))) rest
  rule (rule .nil)

theorem doubleFile_consistent : ConsistentFile doubleFile := by
  obtain ⟨f, h1, _, h2, _⟩ := C14_build_consistent (Forest.node 131 doubleForest .nil).ops
    (forest_singleRoot 131 doubleForest) (ascii "rule a{}rule a{}") (by decide +kernel)
  have : newFile (ascii "rule a{}rule a{}") (Forest.node 131 doubleForest .nil).ops = some doubleFile := by
    decide +kernel
  rw [this, Option.some.injEq] at h1
  rw [h1]
  exact h2

theorem operatorMeans_message {f : File UInt8} {rule : NodeId} {k : Option PrattVariant} {ds : List Diagnostic}
    (h : OperatorMeans f rule k ds) {d : Diagnostic} (hd : d ∈ ds) : d.message ≠ "Duplicate rule" := by
  have key : ∀ {m : String} {e : Bool} {ns : List NodeId} {ds : List Diagnostic}, Reports f e m ns ds → d ∈ ds →
      m ≠ "Duplicate rule" → d.message ≠ "Duplicate rule" := by
    intro m e ns ds hr hd hm
    obtain ⟨n, -, r, -, rfl⟩ := (reports_mem hr d).1 hd
    exact hm
  cases h with
  | atom _ _ _ h =>
    rcases h with ⟨-, h⟩ | ⟨-, rfl⟩
    · exact key h hd (by decide)
    · simp at hd
  | alternatives _ _ _ _ _ _ _ h => exact key h hd (by decide)
  | wrongPostfix _ _ _ _ _ h => exact key h hd (by decide)
  | wrongPrefix _ _ _ _ _ h => exact key h hd (by decide)
  | wrongBin _ _ _ _ _ h => exact key h hd (by decide)
  | noPriority _ _ _ _ _ _ h => exact key h hd (by decide)
  | _ => simp at hd

/-- C59. Two rules with the same name are not reported if nothing refers to any rule, unless somebody asked for
the rules before: what is reported for a file depends on what the analysis was used for. -/
theorem C59_history_counterexample :
    (∃ d, ReportAt doubleFile true "Duplicate rule" (DuplicateRule doubleFile) d ∧
      (∀ db ts, Reach (SysStep (analysisBody doubleFile)) (Db.new, [collectRequests doubleFile].map .run) (db, ts) →
        (∀ t ∈ ts, ∃ v, t = .run (.ret v)) → d ∉ db.diags) ∧
      ∀ db ts, Reach (SysStep (analysisBody doubleFile))
          (Db.new, [collectRequests doubleFile, (do let _ ← get .allSynRules; return ())].map .run) (db, ts) →
        (∀ t ∈ ts, ∃ v, t = .run (.ret v)) → d ∈ db.diags) := by
  have hf := doubleFile_consistent
  have he : Eval (analysisBody doubleFile) (allSynRules doubleFile) (some [([97], 1)])
      [⟨⟨13, 14⟩, true, "Duplicate rule"⟩] := runFuel_eval (n := 100) (by decide +kernel)
  have hrep : ReportAt doubleFile true "Duplicate rule" (DuplicateRule doubleFile)
      ⟨⟨13, 14⟩, true, "Duplicate rule"⟩ := by
    obtain ⟨-, is, h1, -, h2⟩ := C59_duplicate_rules doubleFile hf _ _ he
    obtain ⟨n, hn, r, hr, e⟩ := (reports_mem h2 ⟨⟨13, 14⟩, true, "Duplicate rule"⟩).1 (List.mem_singleton.2 rfl)
    exact ⟨n, r, (h1 n).1 hn, hr, e⟩
  have hty : ∀ {t n : Nat}, OfType doubleFile t n → t ∈ [131, 132, 106, 100, 130, 137, 119, 120] := by
    intro t n h
    have hn : n < 15 := ofType_isNode h
    have : ∀ n < 15, ∀ t ∈ doubleFile.ty n, t ∈ [131, 132, 106, 100, 130, 137, 119, 120] := by decide +kernel
    exact this n hn t h
  refine ⟨_, hrep, fun db ts h hd => ?_, fun db ts h hd => ?_⟩
  · rw [C59_alone doubleFile hf db ts h hd]
    rintro (hp | ⟨hl, -⟩ | ⟨⟨call, _, _, hc, -⟩, -⟩)
    · cases hp with
      | duplicateToken h => obtain ⟨_, _, _, _, e⟩ := h; simp at e
      | unusedRule h => obtain ⟨_, _, _, _, e⟩ := h; simp at e
      | unresolvedRef h => obtain ⟨_, _, _, _, e⟩ := h; simp at e
      | call hc => exact absurd (hty hc) (by decide)
      | operator _ hm hd => exact operatorMeans_message hm hd rfl
      | unresolvedTrait h => obtain ⟨_, _, _, _, e⟩ := h; simp at e
    · rcases hl with ⟨ref, _, _, hr, -⟩ | ⟨call, _, hc, -⟩
      · exact absurd (hty hr) (by decide)
      · exact absurd (hty hc) (by decide)
    · exact absurd (hty hc) (by decide)
  · refine (C59_reported doubleFile hf _ (by simp) db ts h hd ?_ _).2 (.inr (.inl ⟨?_, hrep⟩))
    · intro p hp q hq
      simp only [List.mem_cons, List.not_mem_nil, or_false] at hp
      rcases hp with rfl | rfl
      · exact asked_typed (asked_collectRequests hf hq)
      · rcases needs_bind.1 hq with hq | ⟨_, _, _, hq⟩
        · rcases needs_get.1 hq with rfl | hq
          · trivial
          · exact absurd hq needs_allSynRules
        · exact absurd hq needs_pure
    · rw [C49_complete _ _ _ _ h hd]
      exact ⟨(do let _ ← get .allSynRules; return ()), by simp, needs_bind.2 (.inl (needs_get.2 (.inl rfl)))⟩

/-- C59. The diagnostics are shown as they were reported, none more or less, errors before warnings and then by
their ranges; those with the same severity and range in the order in which they were reported. -/
theorem C59_sorted (ds : List Diagnostic) :
    (sortDiagnostics ds).Perm ds ∧
    (sortDiagnostics ds).Pairwise (fun a b =>
      (a.error = true ∧ b.error = false) ∨ (a.error = b.error ∧ (a.range.start < b.range.start ∨
        (a.range.start = b.range.start ∧ a.range.stop ≤ b.range.stop)))) ∧
    ∀ (e : Bool) (r : TextRange), (sortDiagnostics ds).filter (fun d => d.error == e && decide (d.range = r)) =
      ds.filter (fun d => d.error == e && decide (d.range = r)) := by
  have htrans : ∀ a b c : Diagnostic, Diagnostic.le a b = true → Diagnostic.le b c = true →
      Diagnostic.le a c = true := by
    intro a b c h1 h2
    simp only [Diagnostic.le, decide_eq_true_eq] at *
    revert h1 h2
    cases a.error <;> cases b.error <;> cases c.error <;> simp <;> omega
  have htotal : ∀ a b : Diagnostic, (Diagnostic.le a b || Diagnostic.le b a) = true := by
    intro a b
    simp only [Diagnostic.le, Bool.or_eq_true, decide_eq_true_eq]
    cases a.error <;> cases b.error <;> simp <;> omega
  refine ⟨List.mergeSort_perm _ _, ?_, ?_⟩
  · refine (List.pairwise_mergeSort htrans htotal ds).imp ?_
    intro a b h
    simp only [Diagnostic.le, decide_eq_true_eq] at h
    cases ha : a.error <;> cases hb : b.error <;> simp_all
  · intro e r
    have hs : (ds.filter (fun d => d.error == e && decide (d.range = r))).Sublist (sortDiagnostics ds) := by
      refine List.sublist_mergeSort htrans htotal ?_ List.filter_sublist
      refine List.pairwise_iff_forall_sublist.2 fun {a b} hab => ?_
      have ha := hab.subset (show a ∈ [a, b] by simp)
      have hb := hab.subset (show b ∈ [a, b] by simp)
      simp only [List.mem_filter, Bool.and_eq_true, beq_iff_eq, decide_eq_true_eq] at ha hb
      simp only [Diagnostic.le, decide_eq_true_eq, ha.2.1, ha.2.2, hb.2.1, hb.2.2]
      simp
    have hs' := hs.filter (fun d => d.error == e && decide (d.range = r))
    rw [List.filter_filter] at hs'
    simp only [Bool.and_self] at hs'
    refine (hs'.eq_of_length ?_).symm
    exact (((List.mergeSort_perm ds Diagnostic.le).filter _).length_eq).symm

example : sortDiagnostics [⟨⟨5, 6⟩, false, "w"⟩, ⟨⟨7, 9⟩, true, "e"⟩, ⟨⟨7, 8⟩, true, "b"⟩, ⟨⟨7, 9⟩, true, "a"⟩] =
    [⟨⟨7, 8⟩, true, "b"⟩, ⟨⟨7, 9⟩, true, "e"⟩, ⟨⟨7, 9⟩, true, "a"⟩, ⟨⟨5, 6⟩, false, "w"⟩] := by
  simp [sortDiagnostics, List.mergeSort, List.MergeSort.Internal.splitInTwo, Diagnostic.le]

end Fall
