import Verif.Spec.Json
import Verif.Lemmas.Lists

/-!
JSON documents: what the parser does with their tokens, and that it adds an error to everything else.
-/

namespace Fall

open Spec

namespace JsonParse

open Parser

variable {env : Env} {pos q : Pos} {s s' : PState}

/-- The fields with their events. -/
def fieldItems : Jsons → List (List NodeType × List Event)
  | .nil => []
  | .cons v vs => (109 :: 105 :: v.tokens,
      .start 113 none :: .token 109 1 :: .token 105 1 :: (v.tree ++ [.fin])) :: fieldItems vs

/-- The elements with their events. -/
def elementItems : Jsons → List (List NodeType × List Event)
  | .nil => []
  | .cons v vs => (v.tokens, v.tree) :: elementItems vs

theorem joined_fields : (vs : Jsons) → joined 106 (fieldItems vs) = (vs.fields, vs.fieldTrees)
  | .nil => by simp [fieldItems, joined, Jsons.fields, Jsons.fieldTrees]
  | .cons v .nil => by simp [fieldItems, joined, Jsons.fields, Jsons.fieldTrees, Jsons.comma]
  | .cons v (.cons w vs) => by
    have := joined_fields (.cons w vs)
    simp only [fieldItems] at this
    simp only [fieldItems, joined, this]
    simp [Jsons.fields, Jsons.fieldTrees, Jsons.comma]

theorem joined_elements : (vs : Jsons) → joined 106 (elementItems vs) = (vs.elements, vs.elementTrees)
  | .nil => by simp [elementItems, joined, Jsons.elements, Jsons.elementTrees]
  | .cons v .nil => by simp [elementItems, joined, Jsons.elements, Jsons.elementTrees, Jsons.comma]
  | .cons v (.cons w vs) => by
    have := joined_elements (.cons w vs)
    simp only [elementItems] at this
    simp only [elementItems, joined, this]
    simp [Jsons.elements, Jsons.elementTrees, Jsons.comma]

/-- Which brackets. -/
def Pair (bra ket : NodeType) : Prop := bra = 101 ∧ ket = 102 ∨ bra = 103 ∧ ket = 104

mutual

theorem closing_json {bra ket : NodeType} (hb : Pair bra ket) : (v : Json) → v.Proper → ∀ d us,
    closing bra ket d (v.tokens ++ us) = v.tokens.length + closing bra ket d us
  | .primitive ty, hv, d, us => by
    simp only [Json.Proper, List.mem_cons, List.not_mem_nil, or_false] at hv
    have h1 : ty ≠ ket := by rcases hb with ⟨rfl, rfl⟩ | ⟨rfl, rfl⟩ <;> rcases hv with rfl | rfl | rfl | rfl <;> decide
    have h2 : ty ≠ bra := by rcases hb with ⟨rfl, rfl⟩ | ⟨rfl, rfl⟩ <;> rcases hv with rfl | rfl | rfl | rfl <;> decide
    simp only [Json.tokens, List.cons_append, List.nil_append, List.length_cons, List.length_nil]
    rw [closing_other h1, if_neg h2]
    omega
  | .object fs, hv, d, us => by
    have ih := closing_fields hb fs hv
    simp only [Json.tokens, List.cons_append, List.append_assoc, List.nil_append, List.length_cons, List.length_append,
      List.length_nil]
    rcases hb with ⟨rfl, rfl⟩ | ⟨rfl, rfl⟩
    · rw [closing_other (by decide), if_pos rfl, ih, closing_succ]
      omega
    · rw [closing_other (by decide), if_neg (by decide), ih, closing_other (by decide), if_neg (by decide)]
      omega
  | .array es, hv, d, us => by
    have ih := closing_elements hb es hv
    simp only [Json.tokens, List.cons_append, List.append_assoc, List.nil_append, List.length_cons, List.length_append,
      List.length_nil]
    rcases hb with ⟨rfl, rfl⟩ | ⟨rfl, rfl⟩
    · rw [closing_other (by decide), if_neg (by decide), ih, closing_other (by decide), if_neg (by decide)]
      omega
    · rw [closing_other (by decide), if_pos rfl, ih, closing_succ]
      omega

theorem closing_fields {bra ket : NodeType} (hb : Pair bra ket) : (vs : Jsons) → vs.Proper → ∀ d us,
    closing bra ket d (vs.fields ++ us) = vs.fields.length + closing bra ket d us
  | .nil, _, d, us => by simp [Jsons.fields]
  | .cons v .nil, hv, d, us => by
    have ih := closing_json hb v hv.1
    simp only [Jsons.fields, Jsons.comma, List.cons_append, List.append_nil, List.length_cons]
    rcases hb with ⟨rfl, rfl⟩ | ⟨rfl, rfl⟩ <;>
    · rw [closing_other (by decide), if_neg (by decide), closing_other (by decide), if_neg (by decide), ih]
      omega
  | .cons v (.cons w vs), hv, d, us => by
    have ih := closing_json hb v hv.1
    have ih' := closing_fields hb (.cons w vs) hv.2
    rw [Jsons.fields]
    simp only [Jsons.comma, List.cons_append, List.append_assoc, List.nil_append, List.length_cons, List.length_append]
    rcases hb with ⟨rfl, rfl⟩ | ⟨rfl, rfl⟩ <;>
    · rw [closing_other (by decide), if_neg (by decide), closing_other (by decide), if_neg (by decide), ih,
        closing_other (by decide), if_neg (by decide), ih']
      omega

theorem closing_elements {bra ket : NodeType} (hb : Pair bra ket) : (vs : Jsons) → vs.Proper → ∀ d us,
    closing bra ket d (vs.elements ++ us) = vs.elements.length + closing bra ket d us
  | .nil, _, d, us => by simp [Jsons.elements]
  | .cons v .nil, hv, d, us => by
    have ih := closing_json hb v hv.1
    simp only [Jsons.elements, Jsons.comma, List.append_nil]
    exact ih d us
  | .cons v (.cons w vs), hv, d, us => by
    have ih := closing_json hb v hv.1
    have ih' := closing_elements hb (.cons w vs) hv.2
    rw [Jsons.elements]
    simp only [Jsons.comma, List.cons_append, List.append_assoc, List.nil_append, List.length_cons, List.length_append]
    rcases hb with ⟨rfl, rfl⟩ | ⟨rfl, rfl⟩ <;>
    · rw [ih, closing_other (by decide), if_neg (by decide), ih']
      omega

end

/-! ## The grammar -/

theorem object_node : ListNode jsonGrammar 1 112 101 102 106 20 3 :=
  ⟨13, 19, 18, 15, 16, 17, 8, 2, rfl, rfl, rfl, rfl, ⟨2, rfl, rfl⟩, ⟨3, rfl, rfl⟩, rfl,
    ⟨80, 79, 9, 83, 89, 88, 87, 81, 82, 85, 86, 84, rfl, rfl, rfl, rfl, rfl, ⟨2, rfl, rfl⟩, ⟨3, rfl, rfl⟩, rfl, rfl, rfl,
      rfl, ⟨3, rfl, rfl⟩, rfl⟩,
    ⟨32, 31, 30, 29, 28, 27, 24, 26, 21, 23, 22, 25, rfl, rfl, rfl, rfl, rfl, rfl, rfl, rfl, ⟨7, rfl, rfl⟩, rfl, rfl, rfl,
      rfl⟩⟩

theorem array_node : ListNode jsonGrammar 4 114 103 104 106 54 6 :=
  ⟨15, 41, 40, 37, 38, 39, 10, 5, rfl, rfl, rfl, rfl, ⟨4, rfl, rfl⟩, ⟨5, rfl, rfl⟩, rfl,
    ⟨91, 90, 11, 94, 100, 99, 98, 92, 93, 96, 97, 95, rfl, rfl, rfl, rfl, rfl, ⟨4, rfl, rfl⟩, ⟨5, rfl, rfl⟩, rfl, rfl, rfl,
      rfl, ⟨5, rfl, rfl⟩, rfl⟩,
    ⟨66, 65, 64, 63, 62, 61, 58, 60, 55, 57, 56, 59, rfl, rfl, rfl, rfl, rfl, rfl, rfl, rfl, ⟨7, rfl, rfl⟩, rfl, rfl, rfl,
      rfl⟩⟩

/-- A choice of single tokens, given by the rules and the types. -/
def Tokens (g : Grammar) (e : Nat) (alts : List (Nat × Nat × NodeType)) : Prop :=
  g.rules[e]? = some (.or (alts.map (·.1))) ∧
    ∀ a ∈ alts, g.rules[a.1]? = some (.and [a.2.1] none) ∧ IsToken g a.2.1 a.2.2

theorem tokens_acts {g : Grammar} {e : Nat} {alts : List (Nat × Nat × NodeType)} (h : Tokens g e alts)
    (hg : env.grammar = g) {t : NodeType} (ht : t ∈ alts.map (·.2.2)) {ts : List NodeType}
    (hi : Input env pos (t :: ts)) : Acts env e pos pos.next [.token t 1] := by
  subst hg
  obtain ⟨h1, h2⟩ := h
  refine acts_or h1 ?_
  clear h1
  induction alts with
  | nil => cases ht
  | cons a as ih =>
    obtain ⟨k1, k2⟩ := h2 a List.mem_cons_self
    by_cases hat : a.2.2 = t
    · exact Acts.found (acts_and k1 (by simp) ((acts_token (hat ▸ k2) hi).then acts_done))
    · refine Fails.next (fails_and k1 (by simp) (fails_token k2 hi (by simpa using Ne.symm hat))) (ih ?_ ?_)
      · simp only [List.map_cons, List.mem_cons] at ht
        rcases ht with rfl | ht
        · exact (hat rfl).elim
        · exact ht
      · exact fun a ha => h2 a (List.mem_cons_of_mem _ ha)

theorem tokens_fails {g : Grammar} {e : Nat} {alts : List (Nat × Nat × NodeType)} (h : Tokens g e alts)
    (hg : env.grammar = g) {ts : List NodeType} (ht : ∀ t ∈ alts.map (·.2.2), ts.head? ≠ some t)
    (hi : Input env pos ts) : Fails env e pos := by
  subst hg
  obtain ⟨h1, h2⟩ := h
  refine fails_or h1 fun p hp => ?_
  obtain ⟨a, ha, rfl⟩ := List.mem_map.1 hp
  obtain ⟨k1, k2⟩ := h2 a ha
  exact fails_and k1 (by simp) (fails_token k2 hi (ht _ (List.mem_map.2 ⟨a, ha, rfl⟩)))

theorem tokens_sound {g : Grammar} {e : Nat} {alts : List (Nat × Nat × NodeType)} (h : Tokens g e alts)
    (hg : env.grammar = g) {ts : List NodeType} (hi : Input env pos ts) (hr : Runs env e pos s (some q) s') :
    ∃ t us, t ∈ alts.map (·.2.2) ∧ ts = t :: us ∧ q = ⟨pos.cur + 1, pos.stop⟩ := by
  subst hg
  obtain ⟨h1, h2⟩ := h
  obtain ⟨s1, h3, _⟩ := (runs_or h1).1 hr
  clear h1 hr
  generalize ticked s = s0 at h3
  induction alts generalizing s0 with
  | nil => cases h3
  | cons a as ih =>
    obtain ⟨k1, k2⟩ := h2 a List.mem_cons_self
    cases h3 with
    | found h =>
      obtain ⟨k, q', s2, j1, j2⟩ := (runs_and k1).1 h
      rcases j2 with ⟨_, j2, _⟩ | ⟨j2, j3, _⟩
      · cases j2
      · cases j1 with
        | stuck => simp at j2
        | step j4 j5 =>
          obtain ⟨rfl, _⟩ := turn_nil j5
          cases j3
          obtain ⟨us, rfl, rfl, _⟩ := clean_token k2 hi j4
          exact ⟨_, us, by simp, rfl, rfl⟩
    | next _ h =>
      obtain ⟨t, us, ht, k3⟩ := ih (fun a ha => h2 a (List.mem_cons_of_mem _ ha)) _ h
      exact ⟨t, us, List.mem_cons_of_mem _ ht, k3⟩

theorem primitive_tokens : Tokens jsonGrammar 78 [(71, 70, 107), (73, 72, 110), (75, 74, 109), (77, 76, 108)] :=
  ⟨rfl, by
    simp only [List.mem_cons, List.not_mem_nil, or_false, forall_eq_or_imp, forall_eq]
    exact ⟨⟨rfl, 8, rfl, rfl⟩, ⟨rfl, 11, rfl, rfl⟩, ⟨rfl, 10, rfl, rfl⟩, ⟨rfl, 9, rfl, rfl⟩⟩⟩

theorem first_tokens : Tokens jsonGrammar 54
    [(43, 42, 107), (45, 44, 110), (47, 46, 109), (49, 48, 108), (51, 50, 101), (53, 52, 103)] :=
  ⟨rfl, by
    simp only [List.mem_cons, List.not_mem_nil, or_false, forall_eq_or_imp, forall_eq]
    exact ⟨⟨rfl, 8, rfl, rfl⟩, ⟨rfl, 11, rfl, rfl⟩, ⟨rfl, 10, rfl, rfl⟩, ⟨rfl, 9, rfl, rfl⟩, ⟨rfl, 2, rfl, rfl⟩,
      ⟨rfl, 4, rfl, rfl⟩⟩⟩

theorem rule (hg : env.grammar = jsonGrammar) {e : Nat} {x : Expr} (h : jsonGrammar.rules[e]? = some x) :
    env.grammar.rules[e]? = some x := hg ▸ h

theorem fails_list {g : Grammar} {e first item : Nat} {ty bra ket comma : NodeType}
    (h : ListNode g e ty bra ket comma first item) (hg : env.grammar = g) {ts : List NodeType} (hi : Input env pos ts)
    (ht : ts.head? ≠ some bra) : Fails env e pos := by
  subst hg
  obtain ⟨t, b, b1, ebra, lay, eket, close, body, h1, h2, h3, h4, h5, h6, h7, h8, h9⟩ := h
  refine fails_pub h1 h2 (fails_or h3 fun p hp => ?_)
  obtain rfl := List.mem_singleton.1 hp
  exact fails_and h4 (by simp) (fails_token h5 hi ht)

theorem object_acts (hg : env.grammar = jsonGrammar) (hc : env.cache = none) {fs : Jsons} (hv : fs.Proper)
    (ih : ∀ x ∈ fieldItems fs, ItemActs env 20 3 x ∧ x.1 ≠ []) {pos : Pos} {rest : List NodeType}
    (hi : Input env pos ((Json.object fs).tokens ++ rest)) :
    Acts env 1 pos ⟨pos.cur + (Json.object fs).tokens.length, pos.stop⟩ (Json.object fs).tree := by
  have hj := joined_fields fs
  have hi' : Input env pos (101 :: ((joined 106 (fieldItems fs)).1 ++ 102 :: rest)) := by
    rw [hj]; simpa [Json.tokens] using hi
  have h1 := listNode_acts hc (by rw [hg]; exact object_node) (by decide) (fun x hx => (ih x hx).1)
    (fun p hp => fails_token (t := 109) (by rw [hg]; exact ⟨10, rfl, rfl⟩) hp (by simp)) (fun x hx => (ih x hx).2)
    (by rw [hj, closing_fields (Or.inl ⟨rfl, rfl⟩) fs hv, closing_zero]; rfl) hi'
  rw [hj] at h1
  simpa [Json.tokens, Json.tree, Nat.add_assoc] using h1

theorem array_acts (hg : env.grammar = jsonGrammar) (hc : env.cache = none) {es : Jsons} (hv : es.Proper)
    (ih : ∀ x ∈ elementItems es, ItemActs env 54 6 x ∧ x.1 ≠ []) {pos : Pos} {rest : List NodeType}
    (hi : Input env pos ((Json.array es).tokens ++ rest)) :
    Acts env 4 pos ⟨pos.cur + (Json.array es).tokens.length, pos.stop⟩ (Json.array es).tree := by
  have hj := joined_elements es
  have hi' : Input env pos (103 :: ((joined 106 (elementItems es)).1 ++ 104 :: rest)) := by
    rw [hj]; simpa [Json.tokens] using hi
  have h1 := listNode_acts hc (by rw [hg]; exact array_node) (by decide) (fun x hx => (ih x hx).1)
    (fun p hp => tokens_fails first_tokens hg (by simp) hp) (fun x hx => (ih x hx).2)
    (by rw [hj, closing_elements (Or.inr ⟨rfl, rfl⟩) es hv, closing_zero]; rfl) hi'
  rw [hj] at h1
  simpa [Json.tokens, Json.tree, Nat.add_assoc] using h1

mutual

theorem json_acts (hg : env.grammar = jsonGrammar) (hc : env.cache = none) : (v : Json) → v.Proper →
    ∀ pos rest, Input env pos (v.tokens ++ rest) → (∃ q es, Acts env 54 pos q es) ∧
      Acts env 6 pos ⟨pos.cur + v.tokens.length, pos.stop⟩ v.tree
  | .primitive ty, hv, pos, rest, hi => by
    simp only [Json.Proper, List.mem_cons, List.not_mem_nil, or_false] at hv
    have hi' : Input env pos (ty :: rest) := hi
    refine ⟨⟨_, _, tokens_acts first_tokens hg (t := ty) (by rcases hv with rfl | rfl | rfl | rfl <;> decide) hi'⟩, ?_⟩
    have h1 := tokens_acts primitive_tokens hg (t := ty) (by rcases hv with rfl | rfl | rfl | rfl <;> decide) hi'
    have h2 := acts_pub (e := 7) (ty := 16) (t := 115) (rule hg rfl) (by rw [hg]; rfl) h1
    have h3 := acts_and (e := 67) (rule hg rfl) (by simp) (h2.then acts_done)
    exact acts_or (e := 6) (parts := [67, 68, 69]) (rule hg rfl) (Acts.found h3)
  | .object fs, hv, pos, rest, hi => by
    have h1 := object_acts hg hc hv (fields_acts hg hc fs hv) hi
    have hi' : Input env pos (101 :: (fs.fields ++ 102 :: rest)) := by simpa [Json.tokens] using hi
    refine ⟨⟨_, _, tokens_acts first_tokens hg (t := 101) (by decide) hi'⟩, ?_⟩
    have f7 : Fails env 67 pos := fails_and (rule hg rfl) (by simp) (fails_pub (e := 7) (ty := 16) (t := 115)
      (rule hg rfl) (by rw [hg]; rfl) (tokens_fails primitive_tokens hg (by simp) hi'))
    have h3 := acts_or (e := 6) (parts := [67, 68, 69]) (rule hg rfl)
      (Fails.next f7 (Acts.found (acts_and (e := 68) (rule hg rfl) (by simp) (h1.then acts_done))))
    simpa using h3
  | .array es, hv, pos, rest, hi => by
    have h1 := array_acts hg hc hv (elements_acts hg hc es hv) hi
    have hi' : Input env pos (103 :: (es.elements ++ 104 :: rest)) := by simpa [Json.tokens] using hi
    refine ⟨⟨_, _, tokens_acts first_tokens hg (t := 103) (by decide) hi'⟩, ?_⟩
    have f7 : Fails env 67 pos := fails_and (rule hg rfl) (by simp) (fails_pub (e := 7) (ty := 16) (t := 115)
      (rule hg rfl) (by rw [hg]; rfl) (tokens_fails primitive_tokens hg (by simp) hi'))
    have f1 : Fails env 68 pos := fails_and (rule hg rfl) (by simp) (fails_list object_node hg hi' (by simp))
    have h3 := acts_or (e := 6) (parts := [67, 68, 69]) (rule hg rfl)
      (Fails.next f7 (Fails.next f1 (Acts.found (acts_and (e := 69) (rule hg rfl) (by simp) (h1.then acts_done)))))
    simpa using h3

theorem fields_acts (hg : env.grammar = jsonGrammar) (hc : env.cache = none) : (vs : Jsons) → vs.Proper →
    ∀ x ∈ fieldItems vs, ItemActs env 20 3 x ∧ x.1 ≠ []
  | .nil, _, x, hx => by cases hx
  | .cons v vs, hv, x, hx => by
    have ih := json_acts hg hc v hv.1
    have ih' := fields_acts hg hc vs hv.2
    rcases List.mem_cons.1 hx with rfl | hx
    · refine ⟨fun pos rest hi => ?_, by simp⟩
      have hi0 : Input env pos (109 :: 105 :: (v.tokens ++ rest)) := by simpa using hi
      have hi1 : Input env pos.next (105 :: (v.tokens ++ rest)) := by cases hi0; assumption
      have hi2 : Input env pos.next.next (v.tokens ++ rest) := by cases hi1; assumption
      have h1 := acts_token (e := 33) (t := 109) (by rw [hg]; exact ⟨10, rfl, rfl⟩) hi0
      refine ⟨⟨_, _, acts_token (e := 20) (t := 109) (by rw [hg]; exact ⟨10, rfl, rfl⟩) hi0⟩, ?_⟩
      have h2 := acts_token (e := 34) (t := 105) (by rw [hg]; exact ⟨6, rfl, rfl⟩) hi1
      have h3 := (ih _ _ hi2).2
      have h4 := acts_and (e := 35) (rule hg rfl) (by simp) (h1.then (h2.then (h3.then acts_done)))
      have h5 := acts_pub (e := 3) (ty := 14) (t := 113) (rule hg rfl) (by rw [hg]; rfl)
        (acts_or (e := 36) (rule hg rfl) (Acts.found h4))
      simp only [List.length_cons]
      rw [show pos.cur + (v.tokens.length + 1 + 1) = pos.cur + 1 + 1 + v.tokens.length by omega]
      simpa [Pos.next] using h5
    · exact ih' x hx

theorem elements_acts (hg : env.grammar = jsonGrammar) (hc : env.cache = none) : (vs : Jsons) → vs.Proper →
    ∀ x ∈ elementItems vs, ItemActs env 54 6 x ∧ x.1 ≠ []
  | .nil, _, x, hx => by cases hx
  | .cons v vs, hv, x, hx => by
    have ih := json_acts hg hc v hv.1
    have ih' := elements_acts hg hc vs hv.2
    rcases List.mem_cons.1 hx with rfl | hx
    · refine ⟨fun pos rest hi => ih pos rest hi, ?_⟩
      cases v <;> simp [Json.tokens]
    · exact ih' x hx

end

/-! ## Nothing else -/

theorem fields_of_joined {mid : List NodeType}
    (h : Joined 106 (fun x => ∃ v : Json, v.Proper ∧ x = 109 :: 105 :: v.tokens) mid) :
    ∃ vs : Jsons, vs.Proper ∧ mid = vs.fields := by
  induction h with
  | nil => exact ⟨.nil, trivial, rfl⟩
  | one h =>
    obtain ⟨v, hv, rfl⟩ := h
    exact ⟨.cons v .nil, ⟨hv, trivial⟩, by simp [Jsons.fields, Jsons.comma]⟩
  | cons h _ hne ih =>
    obtain ⟨v, hv, rfl⟩ := h
    obtain ⟨vs, hvs, rfl⟩ := ih
    cases vs with
    | nil => exact (hne rfl).elim
    | cons w vs =>
      refine ⟨.cons v (.cons w vs), ⟨hv, hvs⟩, ?_⟩
      rw [Jsons.fields.eq_2 v]
      simp [Jsons.comma]

theorem elements_of_joined {mid : List NodeType}
    (h : Joined 106 (fun x => ∃ v : Json, v.Proper ∧ x = v.tokens) mid) :
    ∃ vs : Jsons, vs.Proper ∧ mid = vs.elements := by
  induction h with
  | nil => exact ⟨.nil, trivial, rfl⟩
  | one h =>
    obtain ⟨v, hv, rfl⟩ := h
    exact ⟨.cons v .nil, ⟨hv, trivial⟩, by simp [Jsons.elements, Jsons.comma]⟩
  | cons h _ hne ih =>
    obtain ⟨v, hv, rfl⟩ := h
    obtain ⟨vs, hvs, rfl⟩ := ih
    cases vs with
    | nil => exact (hne rfl).elim
    | cons w vs =>
      refine ⟨.cons v (.cons w vs), ⟨hv, hvs⟩, ?_⟩
      rw [Jsons.elements.eq_2 v]
      simp [Jsons.comma]

/-- A value, as types. -/
def IsValue (x : List NodeType) : Prop := ∃ v : Json, v.Proper ∧ x = v.tokens

/-- A field, as types. -/
def IsField (x : List NodeType) : Prop := ∃ v : Json, v.Proper ∧ x = 109 :: 105 :: v.tokens

/-- An object, as types. -/
def IsObject (x : List NodeType) : Prop := ∃ vs : Jsons, vs.Proper ∧ x = (Json.object vs).tokens

/-- An array, as types. -/
def IsArray (x : List NodeType) : Prop := ∃ vs : Jsons, vs.Proper ∧ x = (Json.array vs).tokens

theorem field_sound (hg : env.grammar = jsonGrammar) (hc : env.cache = none) {N : Nat} (hs : Sound env 6 IsValue N) :
    Sound env 3 IsField N := by
  intro pos ts s q s' hts hi hp h hcl
  obtain ⟨s1, s2, k1, k2, k3⟩ := clean_pub hc (ty := 14) (body := 36) (t := 113) (rule hg rfl) (by rw [hg]; rfl) h hcl
  have k4 := clean_or_one (b := 35) (rule hg rfl) k1
  have k5 := clean_and (parts := [33, 34, 6]) (commit := some 1) (by exact k2.trans hp) hc (rule hg rfl) k4
    (by rw [errs_ticked]; exact k3)
  obtain ⟨q1, s3, k6, k7, k8, k9, k10⟩ := turn_cons hc k5 (by rw [errs_ticked, errs_ticked]; exact k3)
  obtain ⟨us, rfl, rfl, hi1⟩ := clean_token (t := 109) (by rw [hg]; exact ⟨10, rfl, rfl⟩) hi k6
  obtain ⟨q2, s4, k11, k12, k13, k14, k15⟩ := turn_cons hc k7 k9
  obtain ⟨vs, rfl, rfl, hi2⟩ := clean_token (t := 105) (by rw [hg]; exact ⟨6, rfl, rfl⟩) hi1 k11
  obtain ⟨q3, s5, k16, k17, k18, _⟩ := turn_cons hc k12 k14
  obtain ⟨rfl, rfl⟩ := turn_nil k17
  obtain ⟨x, rest, ⟨v, hv, rfl⟩, rfl, rfl⟩ := hs _ _ _ _ _ (by simp at hts ⊢; omega) hi2
    (by rw [k15, k10]; exact k2.trans hp) k16 k18
  exact ⟨_, rest, ⟨v, hv, rfl⟩, by simp, by simp; omega⟩

theorem object_sound (hg : env.grammar = jsonGrammar) (hc : env.cache = none) {N : Nat} (hs : Sound env 6 IsValue N) :
    Sound env 1 IsObject (N + 1) := by
  intro pos ts s q s' hts hi hp h hcl
  obtain ⟨x, rest, ⟨mid, hm, rfl⟩, rfl, rfl⟩ := listNode_sound hc (by rw [hg]; exact object_node) (by decide)
    (field_sound hg hc hs) pos ts s q s' hts hi hp h hcl
  obtain ⟨vs, hvs, rfl⟩ := fields_of_joined hm
  exact ⟨_, rest, ⟨vs, hvs, rfl⟩, by simp [Json.tokens], by simp [Json.tokens]⟩

theorem array_sound (hg : env.grammar = jsonGrammar) (hc : env.cache = none) {N : Nat} (hs : Sound env 6 IsValue N) :
    Sound env 4 IsArray (N + 1) := by
  intro pos ts s q s' hts hi hp h hcl
  obtain ⟨x, rest, ⟨mid, hm, rfl⟩, rfl, rfl⟩ := listNode_sound hc (by rw [hg]; exact array_node) (by decide)
    hs pos ts s q s' hts hi hp h hcl
  obtain ⟨vs, hvs, rfl⟩ := elements_of_joined hm
  exact ⟨_, rest, ⟨vs, hvs, rfl⟩, by simp [Json.tokens], by simp [Json.tokens]⟩

/-- A rule that calls one other. -/
theorem clean_call {e p : Nat} (hc : env.cache = none) (he : env.grammar.rules[e]? = some (.and [p] none))
    (hp : s.predicate = false) (h : Runs env e pos s (some q) s') (hcl : errs s' = errs s) :
    ∃ s1, Runs env p pos (ticked s) (some q) s1 ∧ errs s1 = errs (ticked s) ∧ (ticked s).predicate = false := by
  have k := clean_and hp hc he h hcl
  obtain ⟨q1, s1, k1, k2, k3, _⟩ := turn_cons hc k (by rw [errs_ticked]; exact hcl)
  obtain ⟨rfl, rfl⟩ := turn_nil k2
  exact ⟨_, k1, k3, hp⟩

theorem value_sound (hg : env.grammar = jsonGrammar) (hc : env.cache = none) (N : Nat) : Sound env 6 IsValue N := by
  induction N with
  | zero => intro pos ts s q s' hts; exact absurd hts (Nat.not_lt_zero _)
  | succ N ih =>
    intro pos ts s q s' hts hi hp h hcl
    obtain ⟨s1, k1, k2⟩ := (runs_or (parts := [67, 68, 69]) (rule hg rfl)).1 h
    rw [if_neg (by simp)] at k2
    subst k2
    have he0 : ∀ {s1 : PState} {e : Nat}, Runs env e pos (ticked s) none s1 → errs s1 = errs s ∧ s1.predicate = false := by
      intro s1 e h
      exact ⟨by unfold errs; rw [h.fail_events]; rfl, (Runs.scope h).1.trans hp⟩
    cases k1 with
    | found k =>
      obtain ⟨s2, j1, j2, j3⟩ := clean_call hc (rule hg rfl) (by exact hp) k hcl
      obtain ⟨s3, s4, j4, _⟩ := clean_pub hc (ty := 16) (body := 78) (t := 115) (rule hg rfl) (by rw [hg]; rfl) j1 j2
      obtain ⟨t, us, ht, rfl, rfl⟩ := tokens_sound primitive_tokens hg hi j4
      refine ⟨[t], us, ⟨.primitive t, ?_, rfl⟩, rfl, rfl⟩
      simp at ht
      rcases ht with rfl | rfl | rfl | rfl <;> simp [Json.Proper]
    | next k k' =>
      obtain ⟨e1, e2⟩ := he0 k
      cases k' with
      | found k' =>
        obtain ⟨s2, j1, j2, j3⟩ := clean_call hc (rule hg rfl) e2 k' (by omega)
        obtain ⟨x, rest, ⟨vs, hvs, rfl⟩, h1, h2⟩ := object_sound hg hc ih _ _ _ _ _ hts hi j3 j1 j2
        exact ⟨_, rest, ⟨.object vs, hvs, rfl⟩, h1, h2⟩
      | next k' k'' =>
        have e3 := (Runs.scope k').1.trans e2
        have e4 : errs _ = errs _ := congrArg (List.count _) k'.fail_events
        cases k'' with
        | found k'' =>
          obtain ⟨s2, j1, j2, j3⟩ := clean_call hc (rule hg rfl) e3 k'' (by rw [e4]; omega)
          obtain ⟨x, rest, ⟨vs, hvs, rfl⟩, h1, h2⟩ := array_sound hg hc ih _ _ _ _ _ hts hi j3 j1 j2
          exact ⟨_, rest, ⟨.array vs, hvs, rfl⟩, h1, h2⟩
        | next _ k => cases k

/-! ## Documents -/

/-- The tree of a document. -/
def documentTree (v : Json) : List Event := .start 111 none :: (v.tree ++ [.fin])

theorem document_acts (hg : env.grammar = jsonGrammar) (hc : env.cache = none) {v : Json} (hv : v.Proper)
    (hd : v.Document) {pos : Pos} (hi : Input env pos v.tokens) :
    Acts env 0 pos ⟨pos.cur + v.tokens.length, pos.stop⟩ (documentTree v) := by
  refine acts_pub (e := 0) (ty := 12) (t := 111) (rule hg rfl) (by rw [hg]; rfl) ?_
  refine acts_or (e := 14) (parts := [12, 13]) (rule hg rfl) ?_
  cases v with
  | primitive => exact hd.elim
  | object fs =>
    have h1 := object_acts hg hc hv (fields_acts hg hc fs hv) (rest := []) (by simpa using hi)
    have := acts_and (e := 12) (rule hg rfl) (by simp) (h1.then acts_done)
    rw [List.append_nil] at this
    exact Acts.found this
  | array es =>
    have h1 := array_acts hg hc hv (elements_acts hg hc es hv) (rest := []) (by simpa using hi)
    have f1 : Fails env 12 pos := fails_and (rule hg rfl) (by simp)
      (fails_list object_node hg hi (by simp [Json.tokens]))
    have := acts_and (e := 13) (rule hg rfl) (by simp) (h1.then acts_done)
    rw [List.append_nil] at this
    exact Fails.next f1 (Acts.found this)

theorem document_sound (hg : env.grammar = jsonGrammar) (hc : env.cache = none) {ts : List NodeType} {pos q : Pos}
    {s s' : PState} (hi : Input env pos ts) (hp : s.predicate = false) (h : Runs env 0 pos s (some q) s')
    (hcl : errs s' = errs s) : ∃ (v : Json) (rest : List NodeType), v.Proper ∧ v.Document ∧ ts = v.tokens ++ rest ∧
      q = ⟨pos.cur + v.tokens.length, pos.stop⟩ := by
  obtain ⟨s1, s2, k1, k2, k3⟩ := clean_pub hc (ty := 12) (body := 14) (t := 111) (rule hg rfl) (by rw [hg]; rfl) h hcl
  have hp1 := k2.trans hp
  obtain ⟨s3, k4, k5⟩ := (runs_or (parts := [12, 13]) (rule hg rfl)).1 k1
  rw [if_neg (by simp)] at k5
  subst k5
  cases k4 with
  | found k =>
    obtain ⟨s2, j1, j2, j3⟩ := clean_call hc (rule hg rfl) (by exact hp1) k k3
    obtain ⟨x, rest, ⟨vs, hvs, rfl⟩, h1, h2⟩ := object_sound hg hc (value_sound hg hc ts.length) _ _ _ _ _
      (Nat.lt_succ_self _) hi j3 j1 j2
    exact ⟨.object vs, rest, hvs, trivial, h1, h2⟩
  | next k k' =>
    have e3 := (Runs.scope k).1.trans hp1
    have e4 : errs _ = errs _ := congrArg (List.count _) k.fail_events
    rw [errs_ticked] at e4
    cases k' with
    | found k' =>
      obtain ⟨s2, j1, j2, j3⟩ := clean_call hc (rule hg rfl) e3 k' (by omega)
      obtain ⟨x, rest, ⟨vs, hvs, rfl⟩, h1, h2⟩ := array_sound hg hc (value_sound hg hc ts.length) _ _ _ _ _
        (Nat.lt_succ_self _) hi j3 j1 j2
      exact ⟨.array vs, rest, hvs, trivial, h1, h2⟩
    | next _ k => cases k

/-- A document is parsed to its tree. -/
theorem parse_document (hg : env.grammar = jsonGrammar) (hc : env.cache = none) {v : Json} (hv : v.Proper)
    (hd : v.Document) (hi : Input env env.startPos v.tokens) :
    ∃ n ticks, synParse env n = .ok (documentTree v, ticks) := by
  obtain ⟨s1, ⟨n, hn⟩, h2⟩ := document_acts hg hc hv hd hi .new
  have hlen := Input.length hi
  refine ⟨n, s1.ticks, ?_⟩
  have hm : parseMain env n .new = .ok () s1 := by
    unfold parseMain
    refine P.bind_ok.2 ⟨some ⟨env.startPos.cur + v.tokens.length, env.startPos.stop⟩, s1, ?_,
      P.bind_ok.2 ⟨_, _, P.lift_ok.2 ⟨rfl, rfl⟩, ?_⟩⟩
    · rw [show env.grammar.startRule = 0 by rw [hg]; rfl]
      exact hn
    · simp [Pos.isEmpty, P.cond, hlen]
      rfl
  unfold synParse
  rw [hm]
  simp only [h2, emit_events]
  simp [PState.new]

/-- What is parsed without errors is a document. -/
theorem parse_clean (hg : env.grammar = jsonGrammar) (hc : env.cache = none) {ts : List NodeType}
    (hi : Input env env.startPos ts) {n : Nat} {es : List Event} {ticks : Nat}
    (h : synParse env n = .ok (es, ticks)) (hes : .start ERROR none ∉ es) :
    ∃ v : Json, v.Proper ∧ v.Document ∧ ts = v.tokens := by
  unfold synParse at h
  split at h
  case h_2 => cases h
  case h_3 => cases h
  rename_i u s hm
  simp only [Result.ok.injEq, Prod.mk.injEq] at h
  obtain ⟨rfl, rfl⟩ := h
  unfold parseMain at hm
  obtain ⟨r, s1, h1, h⟩ := P.bind_ok.1 hm
  obtain ⟨p, s2, h2, h⟩ := P.bind_ok.1 h
  obtain ⟨rfl, rfl⟩ := P.lift_ok.1 h2
  obtain ⟨_, I, _, a1⟩ := (parseExpr_reads hc _ _ _ _ _ h1).2 _ rfl
  rcases cond_ok h with ⟨_, h⟩ | ⟨hne, rfl⟩
  · exfalso
    obtain ⟨_, s3, h3, h⟩ := P.bind_ok.1 h
    obtain ⟨_, s4, h4, h⟩ := P.bind_ok.1 h
    obtain ⟨_, s5, h5, h⟩ := P.bind_ok.1 h
    obtain ⟨_, S, hS, a5⟩ := bumpAllN_adv (args := PState.new.args) h5
    obtain ⟨_, s6, h6, h⟩ := P.bind_ok.1 h
    have a := (((startError_adv h4).trans a5).trans (event_adv h6)).trans (event_adv h)
    have hp3 : s3.predicate = false := by
      unfold reopen at h3
      rw [if_neg (by rw [(Runs.scope ⟨n, h1⟩).1]; simp [PState.new])] at h3
      split at h3
      · cases h3
        exact (Runs.scope ⟨n, h1⟩).1
      · cases h3
    rw [a.not_pred hp3] at hes
    simp at hes
  · have hend : p.cur = p.stop := by simpa [Pos.isEmpty] using hne
    have hr : Runs env 0 env.startPos .new (some p) s := by
      rw [show env.grammar.startRule = 0 by rw [hg]; rfl] at h1
      exact ⟨n, h1⟩
    have hcl : errs s = errs .new := by
      unfold errs
      rw [List.count_eq_zero.2 hes]
      rfl
    obtain ⟨v, rest, hv, hd, rfl, rfl⟩ := document_sound hg hc hi rfl hr hcl
    have hlen := Input.length hi
    simp only [List.length_append] at hlen hend
    have : rest = [] := List.length_eq_zero_iff.1 (by omega)
    exact ⟨v, hv, hd, by rw [this, List.append_nil]⟩

end JsonParse

end Fall
