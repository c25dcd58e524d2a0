import Verif.Lemmas.Bnf
import Verif.Spec.Sexp

/-!
What the rules of `sexpGrammar` read.
-/

namespace Fall

open Spec

namespace SexpParse

open Parser
open BnfParse (Plain plain_nil)

variable {env : Env} {pos q : Pos} {s s' : PState} {N : Nat}

theorem rule (hg : env.grammar = sexpGrammar) {e : Nat} {x : Expr} (h : sexpGrammar.rules[e]? = some x) :
    env.grammar.rules[e]? = some x := hg ▸ h

theorem type (hg : env.grammar = sexpGrammar) {k : Nat} {t : NodeType} (h : sexpGrammar.nodeTypes[k]? = some t) :
    env.grammar.nodeTypes[k]? = some t := hg ▸ h

theorem tok (hg : env.grammar = sexpGrammar) {e ty : Nat} {t : NodeType} (h : sexpGrammar.rules[e]? = some (.token ty))
    (h' : sexpGrammar.nodeTypes[ty]? = some t) : IsToken env.grammar e t := ⟨ty, rule hg h, type hg h'⟩

theorem item_fails (hg : env.grammar = sexpGrammar) {ts : List NodeType} (hi : Input env pos ts)
    (h1 : ts.head? ≠ some 103) (h2 : ts.head? ≠ some 101) : Fails env 1 pos := by
  refine fails_or (parts := [7, 8]) (rule hg rfl) fun p hp => ?_
  simp only [List.mem_cons, List.not_mem_nil, or_false] at hp
  rcases hp with rfl | rfl
  · exact fails_and (p := 6) (ps := []) (commit := none) (rule hg rfl) (by simp)
      (fails_token (tok (ty := 4) hg rfl rfl) hi h1)
  · refine fails_and (p := 2) (ps := []) (commit := none) (rule hg rfl) (by simp) ?_
    refine fails_pub (ty := 6) (body := 13) (t := 105) (rule hg rfl) (type hg rfl)
      (fails_or (parts := [12]) (rule hg rfl) fun p hp => ?_)
    obtain rfl : p = 12 := by simpa using hp
    exact fails_and (p := 9) (ps := [10, 11]) (commit := none) (rule hg rfl) (by simp)
      (fails_token (tok (ty := 2) hg rfl rfl) hi h2)

mutual

theorem item_acts (hg : env.grammar = sexpGrammar) : (v : Sexp) → ∀ {pos : Pos} {rest : List NodeType},
    Input env pos (v.tokens ++ rest) → Acts env 1 pos ⟨pos.cur + v.tokens.length, pos.stop⟩ v.tree
  | .atom, pos, rest, hi => by
    have hi : Input env pos (103 :: rest) := hi
    exact acts_or (parts := [7, 8]) (rule hg rfl) (Acts.found (acts_and (parts := [6]) (commit := none) (rule hg rfl)
      (by simp) ((acts_token (tok (ty := 4) hg rfl rfl) hi).then acts_done)))
  | .list items, pos, rest, hi => by
    have hi : Input env pos (101 :: (items.tokens ++ 102 :: rest)) := by simpa [Sexp.tokens] using hi
    have hi1 : Input env ⟨pos.cur + 1, pos.stop⟩ (items.tokens ++ 102 :: rest) := Input.after (xs := [101]) hi
    have h1 : Acts env 9 pos ⟨pos.cur + 1, pos.stop⟩ _ := acts_token (tok (ty := 2) hg rfl rfl) hi
    have h2 : Acts env 10 _ _ _ := acts_rep (body := 1) (rule hg rfl)
      (items_acts hg items (pos := ⟨pos.cur + 1, pos.stop⟩) hi1 (by simp) (by simp))
    have h3 : Acts env 11 ⟨pos.cur + 1 + items.tokens.length, pos.stop⟩
        ⟨pos.cur + 1 + items.tokens.length + 1, pos.stop⟩ _ := acts_token (tok (ty := 3) hg rfl rfl) (Input.after hi1)
    have h4 := acts_and (e := 12) (parts := [9, 10, 11]) (commit := none) (rule hg rfl) (by simp)
      (h1.then (h2.then (h3.then acts_done)))
    have h5 := acts_pub (e := 2) (ty := 6) (body := 13) (t := 105) (rule hg rfl) (type hg rfl)
      (acts_or (parts := [12]) (rule hg rfl) h4.found)
    have h6 := acts_and (e := 8) (parts := [2]) (commit := none) (rule hg rfl) (by simp) (h5.then acts_done)
    have h7 : Fails env 7 pos := fails_and (p := 6) (ps := []) (commit := none) (rule hg rfl) (by simp)
      (fails_token (t := 103) (tok (ty := 4) hg rfl rfl) hi (by simp))
    have h8 := acts_or (e := 1) (parts := [7, 8]) (rule hg rfl) (h7.next h6.found)
    rw [show pos.cur + (Sexp.list items).tokens.length = pos.cur + 1 + items.tokens.length + 1 by
      simp [Sexp.tokens]; omega]
    simpa [Sexp.tree] using h8

theorem items_acts (hg : env.grammar = sexpGrammar) : (vs : Sexps) → ∀ {pos : Pos} {rest : List NodeType},
    Input env pos (vs.tokens ++ rest) → rest.head? ≠ some 103 → rest.head? ≠ some 101 →
    ActsRep env 1 pos ⟨pos.cur + vs.tokens.length, pos.stop⟩ vs.trees
  | .nil, pos, rest, hi, h1, h2 => (item_fails hg (by exact hi) h1 h2).stop
  | .cons v vs, pos, rest, hi, h1, h2 => by
    have hi : Input env pos (v.tokens ++ (vs.tokens ++ rest)) := by simpa [Sexps.tokens] using hi
    have h3 := (item_acts hg v hi).again (items_acts hg vs (Input.after hi) h1 h2)
    rw [show pos.cur + (Sexps.cons v vs).tokens.length = pos.cur + v.tokens.length + vs.tokens.length by
      simp [Sexps.tokens]; omega]
    exact h3

end

theorem file_acts (hg : env.grammar = sexpGrammar) {vs : Sexps} (hi : Input env pos vs.tokens) :
    Acts env 0 pos ⟨pos.cur + vs.tokens.length, pos.stop⟩ vs.tree := by
  have h1 : Acts env 3 _ _ _ := acts_rep (body := 1) (rule hg rfl)
    (items_acts hg vs (rest := []) (by simpa using hi) (by simp) (by simp))
  have h2 := acts_and (e := 4) (parts := [3]) (commit := none) (rule hg rfl) (by simp) (h1.then acts_done)
  have h3 := acts_pub (e := 0) (ty := 5) (body := 5) (t := 104) (rule hg rfl) (type hg rfl)
    (acts_or (parts := [4]) (rule hg rfl) h2.found)
  rw [List.append_nil] at h3
  exact h3

theorem rep_items {xs : List (List NodeType)} (h : ∀ x, x ∈ xs → ∃ v : Sexp, x = v.tokens) :
    ∃ vs : Sexps, xs.flatten = vs.tokens := by
  induction xs with
  | nil => exact ⟨.nil, rfl⟩
  | cons x xs ih =>
    obtain ⟨v, rfl⟩ := h x List.mem_cons_self
    obtain ⟨vs, hvs⟩ := ih fun y hy => h y (List.mem_cons_of_mem _ hy)
    exact ⟨.cons v vs, by simp [Sexps.tokens, hvs]⟩

theorem item_sound (hg : env.grammar = sexpGrammar) (hc : env.cache = none) (N : Nat) :
    Sound env 1 (fun x => ∃ v : Sexp, x = v.tokens) N := by
  induction N with
  | zero => intro pos ts s q s' hts; omega
  | succ N ih =>
    refine sound_or (parts := [7, 8]) (rule hg rfl) fun p hp => ?_
    simp only [List.mem_cons, List.not_mem_nil, or_false] at hp
    rcases hp with rfl | rfl
    · refine (sound_and hc (parts := [6]) (commit := none) (rule hg rfl)
        (.cons (sound_token (tok (ty := 4) (t := 103) hg rfl rfl)) .nil)).mono ?_
      rintro x ⟨_, _, rfl, rfl, rfl⟩
      exact ⟨.atom, rfl⟩
    · have h12 : Sound env 12 (fun x => ∃ v : Sexp, x = v.tokens) (N + 1) := by
        intro pos ts s q s' hts hi hp hr hcl
        have ht := clean_and (parts := [9, 10, 11]) (commit := none) hp hc (rule hg rfl) hr hcl
        obtain ⟨q1, s1, k1, k2, k3, k4, k5⟩ := turn_cons hc ht (by rw [errs_ticked]; exact hcl)
        obtain ⟨us, rfl, rfl, hi1⟩ := clean_token (tok (ty := 2) (t := 101) hg rfl rfl) hi k1
        obtain ⟨_, rest, ⟨_, _, ⟨xs, hxs, rfl⟩, ⟨_, _, rfl, rfl, rfl⟩, rfl⟩, rfl, rfl⟩ := turn_sound hc
          (parts := [10, 11]) (.cons (sound_rep hc (body := 1) (rule hg rfl) ih)
            (.cons (sound_token (tok (ty := 3) (t := 102) hg rfl rfl)) .nil)) (by simp at hts; omega) hi1
          (k5.trans hp) k2 k4
        obtain ⟨vs, hvs⟩ := rep_items hxs
        refine ⟨101 :: (xs.flatten ++ ([102] ++ [])), rest, ⟨.list vs, by simp [Sexp.tokens, hvs]⟩, by simp, ?_⟩
        simp; omega
      refine (sound_and hc (parts := [2]) (commit := none) (rule hg rfl)
        (.cons (sound_pub hc (ty := 6) (body := 13) (t := 105) (rule hg rfl) (type hg rfl)
          (sound_or (parts := [12]) (rule hg rfl) fun p hp => by
            obtain rfl : p = 12 := by simpa using hp
            exact h12)) .nil)).mono ?_
      rintro x ⟨_, _, ⟨v, rfl⟩, rfl, rfl⟩
      exact ⟨v, by simp⟩

theorem file_sound (hg : env.grammar = sexpGrammar) (hc : env.cache = none) :
    Sound env 0 (fun x => ∃ vs : Sexps, True ∧ x = vs.tokens) N := by
  refine sound_pub hc (ty := 5) (body := 5) (t := 104) (rule hg rfl) (type hg rfl)
    (sound_or (parts := [4]) (rule hg rfl) fun p hp => ?_)
  obtain rfl : p = 4 := by simpa using hp
  refine (sound_and hc (parts := [3]) (commit := none) (rule hg rfl)
    (.cons (sound_rep hc (body := 1) (rule hg rfl) (item_sound hg hc _)) .nil)).mono ?_
  rintro _ ⟨_, _, ⟨xs, hxs, rfl⟩, rfl, rfl⟩
  obtain ⟨vs, hvs⟩ := rep_items hxs
  exact ⟨vs, trivial, by rw [List.append_nil, hvs]⟩

mutual

theorem item_plain : (v : Sexp) → Plain v.tree
  | .atom => Plain.token (by decide) plain_nil
  | .list items => Plain.start (by decide) (Plain.token (by decide) ((items_plain items).append
      (Plain.token (by decide) plain_nil.fin)))

theorem items_plain : (vs : Sexps) → Plain vs.trees
  | .nil => plain_nil
  | .cons v vs => (item_plain v).append (items_plain vs)

end

theorem tree_plain (vs : Sexps) : Plain vs.tree :=
  Plain.start (by decide) ((items_plain vs).append plain_nil.fin)

theorem exact : Exact sexpGrammar (fun _ : Sexps => True) Sexps.tokens Sexps.tree where
  acts _ hg _ _ _ _ hi := file_acts hg hi
  sound _ hg hc _ := file_sound hg hc
  starts v _ := (tree_plain v).1
  leaves v _ := (tree_plain v).2

/-! ## The tokens determine the expressions -/

mutual

theorem item_inj : (v w : Sexp) → ∀ {r r' : List NodeType}, v.tokens ++ r = w.tokens ++ r' → v = w ∧ r = r'
  | .atom, .atom, r, r', h => ⟨rfl, by simpa [Sexp.tokens] using h⟩
  | .atom, .list _, r, r', h => by simp [Sexp.tokens] at h
  | .list _, .atom, r, r', h => by simp [Sexp.tokens] at h
  | .list vs, .list ws, r, r', h => by
    have h : vs.tokens ++ 102 :: r = ws.tokens ++ 102 :: r' := by simpa [Sexp.tokens] using h
    obtain ⟨h1, h2⟩ := items_inj vs ws (r := 102 :: r) (r' := 102 :: r') (by simp) (by simp) h
    exact ⟨by rw [h1], by simpa using h2⟩

theorem items_inj : (vs ws : Sexps) → ∀ {r r' : List NodeType}, r.head? ≠ some 103 ∧ r.head? ≠ some 101 →
    r'.head? ≠ some 103 ∧ r'.head? ≠ some 101 → vs.tokens ++ r = ws.tokens ++ r' → vs = ws ∧ r = r'
  | .nil, .nil, r, r', _, _, h => ⟨rfl, h⟩
  | .nil, .cons w ws, r, r', hr, _, h => by
    exfalso
    have h : r = w.tokens ++ (ws.tokens ++ r') := by simpa [Sexps.tokens] using h
    cases w <;> simp [h, Sexp.tokens] at hr
  | .cons v vs, .nil, r, r', _, hr, h => by
    exfalso
    have h : v.tokens ++ (vs.tokens ++ r) = r' := by simpa [Sexps.tokens] using h
    cases v <;> simp [← h, Sexp.tokens] at hr
  | .cons v vs, .cons w ws, r, r', hr, hr', h => by
    have h : v.tokens ++ (vs.tokens ++ r) = w.tokens ++ (ws.tokens ++ r') := by simpa [Sexps.tokens] using h
    obtain ⟨h1, h2⟩ := item_inj v w h
    obtain ⟨h3, h4⟩ := items_inj vs ws hr hr' h2
    exact ⟨by rw [h1, h3], h4⟩

end

end SexpParse

theorem sexp_spaceless (lexer : Lexer Nat) : SpacelessStrings (sexpDefinition lexer) := by
  intro ty w h
  have key : sexpRules.all (fun x => match x with | .contextualToken _ _ => false | _ => true) = true := by decide +kernel
  have := List.all_eq_true.1 key _ h
  simp at this

end Fall
