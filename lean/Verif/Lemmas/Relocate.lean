import Verif.Lemmas.Lockstep
import Verif.Lemmas.Marks
import Verif.Props.Lex

/-! A piece of text that has moved: its tokens, and the piece as input of the parser. -/

namespace Fall

open Spec

/-- The tokens at the beginning of a text, elsewhere. -/
theorem lexing_moved {lexer : Lexer Nat} (hla : OneByteLookahead lexer) {X : NodeType}
    (hX : ∀ text text', (lexer text).ty = X → text.take (lexer text).len = text'.take (lexer text).len →
      lexer text' = lexer text) {M R us : List Token} {text text' : List Nat} (hne : M ≠ [])
    (hM : IsLexing lexer text (M ++ R)) (hag : text.take (M.map (·.len)).sum = text'.take (M.map (·.len)).sum)
    (herr : ∀ t ∈ M, t.ty ≠ ERROR) (hlast : ∀ t, M.getLast? = some t → t.ty = X) (hus : IsLexing lexer text' us) :
    ∃ R', us = M ++ R' := by
  induction M generalizing text text' us with
  | nil => exact absurd rfl hne
  | cons t M ih =>
    obtain ⟨h1, h2, h3, h4⟩ := hM
    have hl : ((t :: M).map (·.len)).sum ≤ text'.length := by
      have := congrArg List.length hag
      have h5 := (show IsLexing lexer text ((t :: M) ++ R) from ⟨h1, h2, h3, h4⟩).sum
      simp only [List.map_append, List.sum_append] at h5
      rw [List.length_take, List.length_take] at this
      omega
    have hsum : ((t :: M).map (·.len)).sum = t.len + (M.map (·.len)).sum := by simp
    rw [hsum] at hag hl
    have take_le : ∀ {n m : Nat}, n ≤ m → text.take m = text'.take m → text.take n = text'.take n := by
      intro n m hn h
      have := congrArg (List.take n) h
      rwa [List.take_take, List.take_take, Nat.min_eq_left hn] at this
    have htok : lexer text' = t := by
      rw [← h1]
      cases M with
      | nil =>
        refine hX _ _ (by rw [h1]; exact hlast t rfl) ?_
        rw [h1]
        exact take_le (by omega) hag
      | cons t2 M =>
        refine hla _ _ (by rw [h1]; exact herr t (by simp)) ?_
        rw [h1]
        refine take_le ?_ hag
        have : 0 < t2.len := h4.2.1
        simp
        omega
    cases us with
    | nil =>
      rw [show text' = [] from hus] at hl
      simp at hl
      omega
    | cons u us =>
      obtain ⟨g1, g2, g3, g4⟩ := hus
      have hu : u = t := by rw [← g1, htok]
      subst hu
      cases M with
      | nil => exact ⟨us, rfl⟩
      | cons t2 M =>
        obtain ⟨R', h⟩ := ih (by simp) h4 (by
          have h5 := congrArg (List.drop u.len) hag
          rwa [List.drop_take, List.drop_take, Nat.add_sub_cancel_left] at h5)
          (fun t ht => herr t (by simp [ht])) (fun t ht => hlast t (by simpa using ht)) g4
        exact ⟨R', by rw [h]; rfl⟩

theorem lexing_drop {lexer : Lexer Nat} {A R : List Token} {text : List Nat} (h : IsLexing lexer text (A ++ R)) :
    IsLexing lexer (text.drop (A.map (·.len)).sum) R := by
  induction A generalizing text with
  | nil => simpa using h
  | cons t A ih =>
    have := ih h.2.2.2
    rw [List.drop_drop] at this
    simpa using this

namespace Relocate

open Salvage

variable {isWs : NodeType → Bool} {g : Grammar}

theorem nonWs_length {ts : List Token} {len i : Nat} : (nonWsIndexes isWs len i ts).length = sigCount isWs ts := by
  induction ts generalizing len i with
  | nil => rfl
  | cons t ts ih =>
    rw [nonWsIndexes, sigCount_cons]
    split
    · rw [ih, Nat.zero_add]
    · rw [List.length_cons, ih, Nat.add_comm]

theorem nonWs_shift {ts : List Token} {len i : Nat} :
    nonWsIndexes isWs len i ts = (nonWsIndexes isWs 0 0 ts).map fun x => (len + x.1, i + x.2) := by
  induction ts generalizing len i with
  | nil => rfl
  | cons t ts ih =>
    simp only [nonWsIndexes]
    rw [ih, ih (len := 0 + t.len)]
    split <;> simp [Nat.add_assoc]

/-- Where a significant token is. -/
theorem split_sig {ts : List Token} {c : Nat} (hc : c < sigCount isWs ts) :
    ∃ A x R, ts = A ++ x :: R ∧ sigCount isWs A = c ∧ isWs x.ty = false := by
  induction ts generalizing c with
  | nil => simp [sigCount] at hc
  | cons t ts ih =>
    rw [sigCount_cons] at hc
    by_cases ht : isWs t.ty = true
    · rw [if_pos ht] at hc
      obtain ⟨A, x, R, h1, h2, h3⟩ := ih (c := c) (by omega)
      exact ⟨t :: A, x, R, by rw [h1]; rfl, by rw [sigCount_cons, if_pos ht, h2, Nat.zero_add], h3⟩
    · cases c with
      | zero => exact ⟨[], t, ts, rfl, rfl, by simpa using ht⟩
      | succ c =>
        rw [if_neg ht] at hc
        obtain ⟨A, x, R, h1, h2, h3⟩ := ih (c := c) (by omega)
        exact ⟨t :: A, x, R, by rw [h1]; rfl, by rw [sigCount_cons, if_neg ht, h2, Nat.add_comm], h3⟩

theorem nonWs_at {A R : List Token} {x : Token} (hx : isWs x.ty = false) :
    (nonWsIndexes isWs 0 0 (A ++ x :: R))[sigCount isWs A]? = some ((A.map (·.len)).sum, A.length) := by
  rw [nonWsIndexes_append, List.getElem?_append_right (by rw [nonWs_length]; exact Nat.le_refl _), nonWs_length,
    Nat.sub_self, nonWsIndexes, if_neg (by simp [hx])]
  simp

/-- The significant tokens from number `c` on, `K` of them. -/
theorem split_piece {ts : List Token} {c K : Nat} (hK : 0 < K) (hc : c + K ≤ sigCount isWs ts) :
    ∃ A M R x y, ts = A ++ (M ++ R) ∧ sigCount isWs A = c ∧ sigCount isWs M = K ∧
      M.head? = some x ∧ isWs x.ty = false ∧ M.getLast? = some y ∧ isWs y.ty = false := by
  obtain ⟨A, x, R, rfl, h2, h3⟩ := split_sig (isWs := isWs) (ts := ts) (c := c) (by omega)
  rw [sigCount_append, h2] at hc
  obtain ⟨B, y, S, h4, h5, h6⟩ := split_sig (isWs := isWs) (ts := x :: R) (c := K - 1) (by omega)
  refine ⟨A, B ++ [y], S, x, y, by rw [h4]; simp, h2, ?_, ?_, h3, by simp, h6⟩
  · rw [sigCount_append, h5, sigCount_cons, h6]
    simp [sigCount]
    omega
  · cases B with
    | nil =>
      simp only [List.nil_append, List.cons.injEq] at h4
      simp [h4.1]
    | cons b B =>
      simp only [List.cons_append, List.cons.injEq] at h4
      simp [h4.1]

variable {cache : Option (CacheMap × List Event)} {text : List Nat} {A M R : List Token}

/-- The significant tokens of a piece `M` of the tokens. -/
theorem piece_nonWs {i : Nat} (hi : i < sigCount isWs M) :
    (Env.new cache g isWs text (A ++ (M ++ R))).nonWs[sigCount isWs A + i]? =
      ((nonWsIndexes isWs 0 0 M)[i]?).map fun x => ((A.map (·.len)).sum + x.1, A.length + x.2) := by
  show (nonWsIndexes isWs 0 0 (A ++ (M ++ R)))[_]? = _
  rw [nonWsIndexes_append, List.getElem?_append_right (by rw [nonWs_length]; omega), nonWs_length,
    Nat.add_sub_cancel_left, nonWsIndexes_append, List.getElem?_append_left (by rw [nonWs_length]; exact hi),
    nonWs_shift, List.getElem?_map]
  simp

theorem piece_sigToken {i : Nat} (hi : i < sigCount isWs M) :
    sigToken (Env.new cache g isWs text (A ++ (M ++ R))) (sigCount isWs A + i) =
      sigToken (Env.new none g isWs [] M) i := by
  unfold sigToken
  rw [piece_nonWs hi]
  show _ = (do
    let (_, k) ← (nonWsIndexes isWs 0 0 M)[i]?
    M[k]?)
  have hlt : i < (nonWsIndexes isWs 0 0 M).length := by rw [nonWs_length]; exact hi
  rw [List.getElem?_eq_getElem hlt]
  have := (mem_nonWsIndexes (List.getElem_mem hlt)).2
  simp only [Option.map_some, Option.bind_eq_bind, Option.bind_some]
  show (A ++ (M ++ R))[_]? = _
  rw [List.getElem?_append_right (by omega), Nat.add_sub_cancel_left, List.getElem?_append_left (by omega)]

theorem piece_sigLen {i n : Nat} (hn : i + n ≤ sigCount isWs M) :
    sigLen (Env.new cache g isWs text (A ++ (M ++ R))) (sigCount isWs A + i) n =
      sigLen (Env.new none g isWs [] M) i n := by
  induction n generalizing i with
  | zero => rfl
  | succ n ih =>
    simp only [sigLen]
    rw [piece_sigToken (by omega), Nat.add_assoc, ih (by omega)]

theorem piece_spelled {cache' : Option (CacheMap × List Event)} {text' : List Nat} {A' R' : List Token}
    (hag : (text.drop (A.map (·.len)).sum).take (M.map (·.len)).sum =
      (text'.drop (A'.map (·.len)).sum).take (M.map (·.len)).sum) {i n : Nat} {w : List Nat} (hw : w ≠ [])
    (hn : i + n ≤ sigCount isWs M)
    (h : SpelledBy (Env.new cache g isWs text (A ++ (M ++ R))) (sigCount isWs A + i) n w) :
    SpelledBy (Env.new cache' g isWs text' (A' ++ (M ++ R'))) (sigCount isWs A' + i) n w := by
  obtain ⟨⟨st, k, h1, h2⟩, h3⟩ := h
  have hn0 : n ≠ 0 := by
    rintro rfl
    simp only [sigLen, Option.some.injEq] at h3
    exact hw (List.length_eq_zero_iff.1 h3.symm)
  rw [piece_sigLen hn] at h3
  rw [piece_nonWs (by omega)] at h1
  obtain ⟨⟨d, k'⟩, h4, h5⟩ := Option.map_eq_some_iff.1 h1
  cases h5
  have hle := start_sigLen_le (cache := none) (g := g) (isWs := isWs) (text := []) (tokens := M) h4 h3
  refine ⟨⟨(A'.map (·.len)).sum + d, A'.length + k', ?_, ?_⟩, by rw [piece_sigLen hn]; exact h3⟩
  · rw [piece_nonWs (by omega), h4]
    rfl
  · rw [List.prefix_iff_eq_take] at h2 ⊢
    have h6 := congrArg (fun l => (l.drop d).take w.length) hag
    simp only [List.drop_take, List.take_take, List.drop_drop] at h6
    rw [Nat.min_eq_left (by omega)] at h6
    exact h2.trans h6

/-- Two files with a piece in common. -/
theorem piece_of {text' : List Nat} {A' R' : List Token} (E1 E2 : List Event)
    (hl : ((A ++ (M ++ R)).map (·.len)).sum ≤ text.length) (hl' : ((A' ++ (M ++ R')).map (·.len)).sum ≤ text'.length)
    (hag : (text.drop (A.map (·.len)).sum).take (M.map (·.len)).sum =
      (text'.drop (A'.map (·.len)).sum).take (M.map (·.len)).sum) :
    Parser.Piece ⟨Env.new none g isWs text (A ++ (M ++ R)), Env.new none g isWs text' (A' ++ (M ++ R')),
      sigCount isWs A, sigCount isWs A', sigCount isWs M, E1, E2⟩ (sigCount isWs (A ++ (M ++ R)))
      (sigCount isWs (A' ++ (M ++ R'))) where
  ok := ⟨rfl, fun i hi => by
    show sigToken (Env.new none g isWs text (A ++ (M ++ R))) (sigCount isWs A + i) =
      sigToken (Env.new none g isWs text' (A' ++ (M ++ R'))) (sigCount isWs A' + i)
    rw [piece_sigToken hi, piece_sigToken hi]⟩
  cache1 := rfl
  cache2 := rfl
  env1 := envOk_new hl
  env2 := envOk_new hl'
  stop1 := nonWs_length.symm
  stop2 := nonWs_length.symm
  in1 := by
    show sigCount isWs A + sigCount isWs M ≤ _
    rw [sigCount_append, sigCount_append]
    omega
  in2 := by
    show sigCount isWs A' + sigCount isWs M ≤ _
    rw [sigCount_append, sigCount_append]
    omega
  spelled := fun _ _ _ hw hn h => piece_spelled hag hw hn h

end Relocate

end Fall
