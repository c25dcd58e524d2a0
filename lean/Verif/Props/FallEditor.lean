import Verif.Lemmas.FallEditor
import Verif.Props.FallEditorSample

/-! Properties of the editor features for Fall grammars. -/

namespace Fall
open Spec AProg

/-! ## C68: references -/

/-- C68. Going to a declaration: nothing happens if no node around the caret is a use. Else the innermost use around the
caret is followed: its target is what is shown. This panics exactly if the use is a method whose look-up comes to an
item without a name. -/
theorem C68_goto (f : File UInt8) (hf : ConsistentFile f) (hs : Shaped f) (isWs : NodeType → Bool) (offset : Nat)
    (hoff : offset ≤ f.text.length) {o : Option (Option TextRange)} {ds : List Diagnostic}
    (h : Eval (analysisBody f) (resolveReferenceAt f isWs offset) o ds) :
    ((∀ l, CaretLeaf f isWs offset l → ∀ n, Desc f n l → ∀ ref, ¬ IsReference f n ref) → o = some none) ∧
    ∀ l n, CaretLeaf f isWs offset l → Innermost f l (fun n => ∃ ref, IsReference f n ref) n →
      (o = none ↔ OfType f 153 n ∧ NamelessItem f n) ∧
      ∀ res, o = some res → ∃ t, LeadsTo f n t ∧ (∀ t', LeadsTo f n t' → t' = t) ∧
        (t = none ∧ res = none ∨
         ∃ d i r, t = some d ∧ Shown f d i ∧ (∀ j, Shown f d j → j = i) ∧ f.range i = some r ∧ res = some r) := by
  unfold resolveReferenceAt at h
  rw [eval_bind_any] at h
  have panics : ¬ ∃ ds, Eval (analysisBody f) (tryFindAtOffset f isWs offset (refProvider f)) none ds := by
    rintro ⟨ds, h⟩
    rcases tryFind_eval hf hoff h with ⟨h, -⟩ | ⟨l, n, h1, -, ⟨h2, -⟩, ⟨ds, h3⟩, -⟩
    · cases h
    · exact safe_refProvider hf hs (desc_isNode' hf h2 (caretLeaf_isNode hf hoff h1)) ds h3
  rcases h with ⟨r, _, _, h1, h, -⟩ | ⟨-, h⟩
  · rcases tryFind_eval hf hoff h1 with ⟨h2, h3⟩ | ⟨l, n, h2, h3, h4, ⟨_, h5⟩, -⟩
    · cases h2
      have no : ∀ l, CaretLeaf f isWs offset l → ∀ n, Desc f n l → ∀ ref, ¬ IsReference f n ref := by
        intro l hl n hn
        obtain ⟨_, h⟩ := h3 l hl n hn
        exact refProvider_eval hf h
      refine ⟨fun _ => (eval_pure.1 h).1, fun l n hl hn => ?_⟩
      obtain ⟨ref, href⟩ := hn.2.1
      exact absurd href (no l hl n hn.1 ref)
    · have hnode := caretLeaf_isNode hf hoff h2
      have hiff : ∀ m, Desc f m l → ((∃ o ds, Eval (analysisBody f) (refProvider f m) o ds ∧ o ≠ some none) ↔
          ∃ ref, IsReference f m ref) := by
        intro m hm
        constructor
        · rintro ⟨o, ds, he, hne⟩
          match o, he, hne with
          | none, he, _ => exact absurd he (safe_refProvider hf hs (desc_isNode' hf hm hnode) ds)
          | some none, _, hne => exact absurd rfl hne
          | some (some r), he, _ => exact ⟨_, (refProvider_eval hf he).1⟩
        · rintro ⟨ref, href⟩
          obtain ⟨o, ds, he⟩ := ends_all (f := f) (refProvider f m)
          refine ⟨o, ds, he, ?_⟩
          rintro rfl
          exact refProvider_eval hf he ref href
      have h4 := (innermost_congr hiff).1 h4
      have hr : ∃ r', r = some r' := by
        cases r with
        | some r => exact ⟨r, rfl⟩
        | none =>
          obtain ⟨ref, href⟩ := h4.2.1
          exact absurd href (refProvider_eval hf h5 ref)
      obtain ⟨r, rfl⟩ := hr
      have hro : RefOf f n r := refProvider_eval hf h5
      refine ⟨fun hno => ?_, fun l' n' hl' hn' => ?_⟩
      · exact absurd hro.1 (hno l h2 n h4.1 _)
      · cases h3 l' hl'
        cases innermost_unique hf hn' h4
        simp only at h
        rw [eval_bind_any] at h
        rcases h with ⟨d, _, _, h6, h, -⟩ | ⟨rfl, h⟩
        · obtain ⟨g1, g2⟩ := resolveDeclaration_eval hf hro h6
          have hnp : ¬ (OfType f 153 n ∧ NamelessItem f n) := by
            intro hp
            obtain ⟨_, hp⟩ := (resolveDeclaration_panic hf hs hro).2 hp
            cases (Eval.det hp h6).1
          have huniq : ∀ t', LeadsTo f n t' → t' = d.map (·.node) := fun t' ht' => leadsTo_unique hf ht' g1
          cases d with
          | none =>
            obtain ⟨e, -⟩ := eval_pure.1 h
            subst e
            refine ⟨by simp [hnp], fun res hres => ⟨_, g1, huniq, .inl ⟨rfl, ?_⟩⟩⟩
            rw [Option.some.injEq] at hres
            exact hres.symm
          | some d =>
            obtain ⟨-, hsh, -⟩ := defProvider_some hf (g2 d rfl)
            obtain ⟨r, hr⟩ := range_total (shown_range hf hsh)
            simp only at h
            rw [eval_bind_any] at h
            rcases h with ⟨r', _, _, h7, h, -⟩ | ⟨rfl, h⟩
            · obtain ⟨h7, -⟩ := eval_lift.1 h7
              rw [navigationRange, hr] at h7
              cases h7
              obtain ⟨e, -⟩ := eval_pure.1 h
              subst e
              refine ⟨by simp [hnp], fun res hres => ⟨_, g1, huniq, .inr ⟨d.node, _, r, rfl, hsh, ?_, hr, ?_⟩⟩⟩
              · exact fun j hj => shown_unique hj hsh
              · rw [Option.some.injEq] at hres
                exact hres.symm
            · obtain ⟨h7, -⟩ := eval_lift.1 h
              rw [navigationRange, hr] at h7
              cases h7
        · have := (resolveDeclaration_panic hf hs hro).1 ⟨_, h⟩
          exact ⟨by simp [this], by simp⟩
  · exact absurd ⟨_, h⟩ panics

/-- C68. Finding usages: nothing is found if no node around the caret is about a declaration. Else the innermost such
node gives the declaration, and all uses of it in the file are found, each once and in the order of a walk bottom up. -/
theorem C68_usages (f : File UInt8) (hf : ConsistentFile f) (isWs : NodeType → Bool) (offset : Nat)
    (hoff : offset ≤ f.text.length) {res : List TextRange} {ds : List Diagnostic}
    (h : Eval (analysisBody f) (findUsages f isWs offset) (some res) ds) :
    ((∀ l, CaretLeaf f isWs offset l → ∀ n, Desc f n l → ∀ d, ¬ About f offset n d) → res = []) ∧
    ∀ l n d, CaretLeaf f isWs offset l → Innermost f l (fun n => ∃ d, About f offset n d) n → About f offset n d →
      ∃ uses refs : List NodeId, (∀ m, m ∈ uses ↔ LeadsTo f m (some d)) ∧ uses.Nodup ∧
        uses.Pairwise (fun x y => (Desc f y x ∧ x ≠ y) ∨ Before f x y) ∧
        Pointwise (IsReference f) uses refs ∧ refs.mapM f.range = some res := by
  unfold findUsages at h
  rw [eval_bind_some] at h
  obtain ⟨v, _, _, h1, h, -⟩ := h
  rcases tryFind_eval hf hoff h1 with ⟨h2, h3⟩ | ⟨l, n, h2, h3, h4, ⟨_, h5⟩, hne⟩
  · cases h2
    refine ⟨fun _ => ?_, fun l n d hl hn hd => ?_⟩
    · have := (eval_pure.1 h).1
      rw [Option.some.injEq] at this
      exact this
    · obtain ⟨_, h⟩ := h3 l hl n hn.1
      exact absurd hd ((declarationAt_eval hf h).2 rfl d)
  · cases v with
    | none => exact absurd rfl hne
    | some dec =>
      obtain ⟨g1, -⟩ := declarationAt_eval hf h5
      obtain ⟨g1, g2⟩ := g1 dec rfl
      refine ⟨fun hno => absurd g1 (hno l h2 n h4.1 _), fun l' n' d hl' hn' hd => ?_⟩
      cases h3 l' hl'
      have hle : Desc f n n' := by
        refine hn'.2.2 n h4.1 ⟨_, g1⟩
      have hge : Desc f n' n := by
        refine h4.2.2 n' hn'.1 ?_
        obtain ⟨o, ds, he⟩ := ends_all (f := f) (declarationAt f offset n')
        refine ⟨o, ds, he, ?_⟩
        rintro rfl
        exact (declarationAt_eval hf he).2 rfl d hd
      have e : n' = n := Nat.le_antisymm (desc_le hf.nodes hge) (desc_le hf.nodes hle)
      rw [e] at hd
      cases about_unique hf hd g1
      obtain ⟨nodes, k1, k2, k3, -, k4, -⟩ := C21_subtree f hf.nodes 0 (root_isNode hf.nodes)
      simp only at h
      rw [eval_bind_some] at h
      obtain ⟨ns, _, _, h6, h, -⟩ := h
      obtain ⟨h6, -⟩ := eval_lift.1 h6
      rw [File.root, k1] at h6
      cases h6
      obtain ⟨uses, refs, u1, u2, u3, u4⟩ := usagesOf_eval hf g2 h
      refine ⟨uses, refs, fun m => ?_, u1.nodup k3, k4.sublist u1, u3, u4⟩
      constructor
      · intro hm
        exact (u2 m (u1.subset hm)).1 hm
      · intro hm
        refine (u2 m ((k2 m).2 (root_desc hf.nodes (leadsTo_isNode hm)))).2 hm

/-- C68. Finding usages does not panic if all nodes and classes of the tree have names. -/
theorem C68_usages_total (f : File UInt8) (hf : ConsistentFile f) (hs : Shaped f) (isWs : NodeType → Bool)
    (offset : Nat) (hoff : offset ≤ f.text.length)
    (hnames : ∀ n, OfType f 150 n ∨ OfType f 151 n → ∃ s, Ident f n s) :
    ∃ res ds, Eval (analysisBody f) (findUsages f isWs offset) (some res) ds := by
  have hsafe : Safe (analysisBody f) (findUsages f isWs offset) := by
    refine safe_bind ?_ fun v _ _ => ?_
    · intro ds h
      rcases tryFind_eval hf hoff h with ⟨h, -⟩ | ⟨l, n, h1, -, ⟨h2, -⟩, ⟨ds, h3⟩, -⟩
      · cases h
      · exact safe_declarationAt hf hs hnames (desc_isNode' hf h2 (caretLeaf_isNode hf hoff h1)) _ ds h3
    · cases v with
      | none => exact safe_pure _
      | some d =>
        obtain ⟨nodes, k1, k2, -⟩ := C21_subtree f hf.nodes 0 (root_isNode hf.nodes)
        refine safe_bind (safe_lift (by simp [File.root, k1])) fun ns _ hns => ?_
        obtain ⟨hns, -⟩ := eval_lift.1 hns
        rw [File.root, k1] at hns
        cases hns
        exact safe_usagesOf hf hs hnames d fun n hn => desc_isNode hf.nodes ((k2 n).1 hn) (root_isNode hf.nodes)
  obtain ⟨o, ds, h⟩ := ends_all (f := f) (findUsages f isWs offset)
  cases o with
  | none => exact absurd h (hsafe ds)
  | some res => exact ⟨res, ds, h⟩

/-- From `<f|` in the first rule of the grammar to the name of the rule `f`. -/
example : ConsistentFile grammarFile ∧ Shaped grammarFile ∧ 35 ≤ grammarFile.text.length ∧
    Eval (analysisBody grammarFile) (resolveReferenceAt grammarFile fallIsWs 35) (some (some ⟨50, 51⟩)) [] :=
  ⟨grammarFile_consistent, grammarFile_shaped, by decide +kernel, runFuel_eval (n := 100) (by decide +kernel)⟩

/-- The uses of the rule `s` of the grammar, found from its name. -/
example : Eval (analysisBody grammarFile) (findUsages grammarFile fallIsWs 30) (some [⟨92, 93⟩, ⟨98, 99⟩]) [] :=
  runFuel_eval (n := 200) (by decide +kernel)

/-- C68, counterexample to "a caret that touches a use goes to the declaration": right before the name of a called rule
it does not. -/
theorem C68_touching_counterexample :
    ∃ f : File UInt8, ConsistentFile f ∧ Shaped f ∧ ∃ n offset ds, IsReference f n n ∧ Touches f n offset ∧
      (∃ d, LeadsTo f n (some d)) ∧ Eval (analysisBody f) (resolveReferenceAt f fallIsWs offset) (some none) ds := by
  refine ⟨grammarFile, grammarFile_consistent, grammarFile_shaped, 27, 34, [], ?_⟩
  have hr : Eval (analysisBody grammarFile) (refProvider grammarFile 27) (some (some ⟨27, .call⟩)) [] :=
    runFuel_eval (n := 100) (by decide +kernel)
  have hr := refProvider_eval grammarFile_consistent hr
  have hd : Eval (analysisBody grammarFile) (resolveDeclaration grammarFile ⟨27, .call⟩) (some (some ⟨38, some 41⟩)) [] :=
    runFuel_eval (n := 100) (by decide +kernel)
  refine ⟨hr.1, ⟨⟨34, 35⟩, by decide +kernel, by decide, by decide⟩, ⟨38, ?_⟩, runFuel_eval (n := 100) (by decide +kernel)⟩
  exact (resolveDeclaration_eval grammarFile_consistent hr hd).1

/-- C68, counterexample to "finding usages does not panic": with the text `ast { node }` and the caret behind `node`. -/
theorem C68_usages_counterexample :
    ∃ file data, (fallDefinition (ruleLexer fallLexRules)).parse 1000
        (([97, 115, 116, 32, 123, 32, 110, 111, 100, 101, 32, 125] : List UInt8).map UInt8.toNat) = .ok (file, data) ∧
      ∃ ds, Eval (analysisBody ⟨[97, 115, 116, 32, 123, 32, 110, 111, 100, 101, 32, 125], file.nodes⟩)
        (findUsages ⟨[97, 115, 116, 32, 123, 32, 110, 111, 100, 101, 32, 125], file.nodes⟩ fallIsWs 10) none ds :=
  ranOn_eval (p := fun f => findUsages f fallIsWs 10) (by decide +kernel)

/-! ## Parsed files -/

/-- C64. In every parsed grammar, the declarations are children of the root. -/
theorem C64_fall_declarations {lexer : Lexer Nat} (hlex : LexesBy fallLexRules lexer) {n : Nat} {text : List UInt8}
    {file : File Nat} {data : Definition.IncrementalData}
    (h : (fallDefinition lexer).parse n (text.map UInt8.toNat) = .ok (file, data)) :
    TopDeclarations ⟨text, file.nodes⟩ := by
  obtain ⟨hc, -⟩ := fall_consistent hlex h
  obtain ⟨hroot, hin⟩ := C64_fall_root hlex h
  have up : ∀ m t, file.ty m = some t → m ≠ 0 → ∃ p tp, Child file p m ∧ file.ty p = some tp := by
    intro m t hm hne
    obtain ⟨dm, hd, -⟩ : ∃ dm : NodeData, file.nodes[m]? = some dm ∧ dm.ty = t := by
      simpa [File.ty, File.data] using hm
    obtain ⟨p, hp⟩ := Option.ne_none_iff_exists'.1 (hc.nodes.nonroot m dm hd hne)
    obtain ⟨dp, h1, h2⟩ := hc.nodes.parent m dm p hd hp
    exact ⟨p, dp.ty, ⟨dp.children, by simp [File.children, File.data, h1], h2⟩, by simp [File.ty, File.data, h1]⟩
  intro m t ht hm
  have hm : file.ty m = some t := hm
  have hne : m ≠ 0 := by
    rintro rfl
    rw [hroot] at hm
    cases hm
    revert ht
    decide
  obtain ⟨p, tp, h1, h2⟩ := up m t hm hne
  have h3 : tp = 131 := by
    refine Classical.byContradiction fun hne => ?_
    exact C64_fall_top hlex h tp hne p m t h2 h1 hm ht
  subst h3
  have h4 : p = 0 := by
    refine Classical.byContradiction fun hne => ?_
    obtain ⟨q, tq, h5, h6⟩ := up p 131 h2 hne
    exact hin tq q p 131 h6 h5 h2 (by simp)
  subst h4
  exact h1

/-! ## C69: tests -/

/-- C69. The test at the caret: its number among the tests of the file. -/
theorem C69_test (f : File UInt8) (hf : ConsistentFile f) (ht : TopDeclarations f) (offset : Nat)
    (hoff : offset ≤ f.text.length) :
    ∃ o, testAtOffset f offset = some o ∧
      (o = none ↔ ∀ t, ¬ TestAt f offset t) ∧
      ∀ i, o = some i ↔ ∃ tests t, ChildrenWith f 0 (OfType f 143) tests ∧ tests[i]? = some t ∧ TestAt f offset t := by
  obtain ⟨leaves, e1, hl, hn⟩ := rightLeaf hf hoff
  have uniq : ∀ l, Rightmost f (LeafAt f offset) l → leaves.rightBiased = some l := fun l h => (hl l).2 h
  cases e2 : leaves.rightBiased with
  | none =>
    have hno : ∀ t, ¬ TestAt f offset t := by
      rintro t ⟨l, h1, -⟩
      rw [uniq l h1] at e2
      cases e2
    refine ⟨none, by simp [testAtOffset, File.root, e1, e2], by simpa using hno, fun i => ?_⟩
    constructor
    · intro h; cases h
    · rintro ⟨_, t, -, -, h⟩
      exact absurd h (hno t)
  | some l =>
    have hl' : ∀ l', Rightmost f (LeafAt f offset) l' → l' = l := by
      intro l' h'
      have := uniq l' h'
      rw [e2] at this
      cases this
      rfl
    have hln := hn l e2
    obtain ⟨res, e3, h1, h2⟩ := astAncestor_spec hf.nodes hln (· == Ty.testDef)
    cases res with
    | none =>
      have hno : ∀ t, ¬ TestAt f offset t := by
        rintro t ⟨l', h3, h4, h5, -⟩
        cases hl' l' h3
        have := h2 rfl t 143 h4 h5
        simp [Ty.testDef] at this
      refine ⟨none, by simp [testAtOffset, File.root, e1, e2, e3], by simpa using hno, fun i => ?_⟩
      constructor
      · intro h; cases h
      · rintro ⟨_, t, -, -, h⟩
        exact absurd h (hno t)
    | some m =>
      obtain ⟨h3, ⟨ty, h4, h5⟩, h6⟩ := h1 m rfl
      have h5 : ty = 143 := by simpa [Ty.testDef] using h5
      subst h5
      have hm : TestAt f offset m := ⟨l, (hl l).1 e2, h3, h4, fun q hq hq' => h6 q 143 hq hq' rfl⟩
      have hmu : ∀ t, TestAt f offset t → t = m := by
        rintro t ⟨l', h7, h8⟩
        cases hl' l' h7
        exact innermost_unique hf h8 ⟨h3, h4, fun q hq hq' => h6 q 143 hq hq' rfl⟩
      have e4 := astChildren_eq hf (root_isNode hf.nodes) (· == Ty.testDef)
      have hcw : ChildrenWith f 0 (OfType f 143) _ := childrenWith_type hf (root_isNode hf.nodes) e4
      have hmem : m ∈ (kids f 0).filter fun c => (dat f c).ty == Ty.testDef := by
        obtain ⟨all, h7, h8, h9⟩ := hcw
        obtain ⟨cs, h10, h11⟩ := ht m 143 (by decide) h4
        rw [h10] at h7
        cases h7
        exact (h9 m h11).2 h4
      have hnd : ((kids f 0).filter fun c => (dat f c).ty == Ty.testDef).Nodup :=
        (kids_nodup hf.nodes (root_isNode hf.nodes)).sublist List.filter_sublist
      obtain ⟨i, e5⟩ : ∃ i, ((kids f 0).filter fun c => (dat f c).ty == Ty.testDef).findIdx? (· == m) = some i := by
        cases h : ((kids f 0).filter fun c => (dat f c).ty == Ty.testDef).findIdx? (· == m) with
        | some i => exact ⟨i, rfl⟩
        | none =>
          rw [List.findIdx?_eq_none_iff] at h
          have := h m hmem
          simp at this
      refine ⟨some i, by simp [testAtOffset, File.root, e1, e2, e3, e4, e5], ?_, fun j => ?_⟩
      · simp only [reduceCtorEq, false_iff]
        exact fun h => h m hm
      · have hi := List.findIdx?_eq_some_iff_getElem.1 e5
        obtain ⟨hlt, hi, -⟩ := hi
        have hi : ((kids f 0).filter fun c => (dat f c).ty == Ty.testDef)[i]? = some m := by
          rw [List.getElem?_eq_getElem hlt]
          simpa using hi
        constructor
        · intro h
          cases h
          exact ⟨_, m, hcw, hi, hm⟩
        · rintro ⟨tests, t, h7, h8, h9⟩
          cases hmu t h9
          cases childrenWith_unique hf (root_isNode hf.nodes) h7 hcw
          have : i = j := (List.getElem?_inj hlt hnd).1 (hi.trans h8.symm)
          rw [this]

/-- C69. For parsed files asking for the test at the caret does not panic. -/
theorem C69_fall {lexer : Lexer Nat} (hlex : LexesBy fallLexRules lexer) {n : Nat} {text : List UInt8}
    {file : File Nat} {data : Definition.IncrementalData}
    (h : (fallDefinition lexer).parse n (text.map UInt8.toNat) = .ok (file, data)) (offset : Nat)
    (hoff : offset ≤ text.length) : ∃ o, testAtOffset ⟨text, file.nodes⟩ offset = some o := by
  obtain ⟨o, h, -⟩ := C69_test ⟨text, file.nodes⟩ (C60_parsed hlex h).1 (C64_fall_declarations hlex h) offset hoff
  exact ⟨o, h⟩

/-- The text `rule x {}test r"a"test r#"b"#`. -/
def testsText : List UInt8 := [114, 117, 108, 101, 32, 120, 32, 123, 125, 116, 101, 115, 116, 32, 114, 34, 97, 34, 116,
  101, 115, 116, 32, 114, 35, 34, 98, 34, 35]

/-- Carets in the rule, between the rule and the first test, between the tests and at the end. -/
example : ∃ nodes, parsedNodes 500 testsText = some nodes ∧ ConsistentFile (⟨testsText, nodes⟩ : File UInt8) ∧
    [8, 9, 18, 29].map (testAtOffset ⟨testsText, nodes⟩) = [some none, some (some 0), some (some 1), some (some 1)] := by
  have h : ((parsedNodes 500 testsText).map fun nodes => [8, 9, 18, 29].map (testAtOffset ⟨testsText, nodes⟩)) =
      some [some none, some (some 0), some (some 1), some (some 1)] := by decide +kernel
  rw [Option.map_eq_some_iff] at h
  obtain ⟨nodes, h1, h2⟩ := h
  exact ⟨nodes, h1, (parsedNodes_shaped h1).1, h2⟩

end Fall
