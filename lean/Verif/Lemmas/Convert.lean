import Verif.Lemmas.SynMain
import Verif.Lemmas.TreeBuild
import Verif.Spec.Convert

/-! Conversion of events to a tree. -/

namespace Fall

open Spec Convert

/-! ## Closing -/

theorem closes_split {a b : Nat} {c : List Event} (h : Closes (a + 1 + (b + 1)) c) :
    ∃ c1 c2, c = c1 ++ .fin :: c2 ∧ Closes (a + 1) (c1 ++ [.fin]) ∧ Closes (b + 1) c2 := by
  induction c generalizing a with
  | nil => simp [Closes] at h
  | cons e c ih =>
    cases e with
    | start ty fp =>
      simp only [Closes] at h
      rw [show a + 1 + (b + 1) + 1 = (a + 1) + 1 + (b + 1) by omega] at h
      obtain ⟨c1, c2, rfl, h1, h2⟩ := ih h
      exact ⟨.start ty fp :: c1, c2, rfl, h1, h2⟩
    | token ty n =>
      simp only [Closes] at h
      obtain ⟨c1, c2, rfl, h1, h2⟩ := ih h
      exact ⟨.token ty n :: c1, c2, rfl, h1, h2⟩
    | cached k n =>
      simp only [Closes] at h
      obtain ⟨c1, c2, rfl, h1, h2⟩ := ih h
      exact ⟨.cached k n :: c1, c2, rfl, h1, h2⟩
    | fin =>
      cases a with
      | zero =>
        rw [show 0 + 1 + (b + 1) = b + 2 by omega] at h
        simp only [Closes] at h
        exact ⟨[], c, rfl, by simp [Closes], h⟩
      | succ a =>
        rw [show a + 1 + 1 + (b + 1) = (a + 1 + b) + 2 by omega] at h
        simp only [Closes] at h
        rw [show a + 1 + b + 1 = a + 1 + (b + 1) by omega] at h
        obtain ⟨c1, c2, rfl, h1, h2⟩ := ih h
        exact ⟨.fin :: c1, c2, rfl, by simpa [Closes] using h1, h2⟩

theorem closes_last {d : Nat} {c : List Event} (h : Closes d c) : ∃ c', c = c' ++ [.fin] := by
  induction c generalizing d with
  | nil => simp [Closes] at h
  | cons e c ih =>
    have aux : ∀ {d}, Closes d c → ∃ c', e :: c = c' ++ [.fin] := by
      intro d h
      obtain ⟨c', rfl⟩ := ih h
      exact ⟨e :: c', rfl⟩
    cases e with
    | start ty fp => exact aux h
    | token ty n => simp only [Closes] at h; exact aux h
    | cached k n => simp only [Closes] at h; exact aux h
    | fin =>
      match d with
      | 0 => simp [Closes] at h
      | 1 =>
        simp only [Closes] at h
        subst h
        exact ⟨[], rfl⟩
      | d + 2 => exact aux h

theorem closes_join {a b : Nat} {c1 c2 : List Event} (h1 : Closes (a + 1) (c1 ++ [.fin]))
    (h2 : Closes (b + 1) c2) : Closes (a + 1 + (b + 1)) (c1 ++ .fin :: c2) := by
  induction c1 generalizing a with
  | nil =>
    cases a with
    | zero =>
      simp only [List.nil_append]
      rw [show 0 + 1 + (b + 1) = b + 2 by omega]
      exact h2
    | succ a => simp [Closes] at h1
  | cons e c1 ih =>
    cases e with
    | start ty fp =>
      simp only [List.cons_append, Closes] at h1 ⊢
      rw [show a + 1 + (b + 1) + 1 = (a + 1) + 1 + (b + 1) by omega]
      exact ih h1
    | token ty n =>
      simp only [List.cons_append, Closes] at h1 ⊢
      exact ih h1
    | cached k n =>
      simp only [List.cons_append, Closes] at h1 ⊢
      exact ih h1
    | fin =>
      cases a with
      | zero =>
        simp [Closes] at h1
      | succ a =>
        simp only [List.cons_append, Closes] at h1
        rw [show a + 1 + 1 + (b + 1) = (a + 1 + b) + 2 by omega]
        simp only [List.cons_append, Closes]
        rw [show a + 1 + b + 1 = a + 1 + (b + 1) by omega]
        exact ih h1

theorem closes_encode (I : Items) (d : Nat) (es : List Event) :
    Closes (d + 1) (I.encode ++ es) ↔ Closes (d + 1) es := by
  induction I generalizing d es with
  | nil => rfl
  | tok ty n rest ih => simp [Items.encode, Closes, ih]
  | cached key body rest ihb ih => simp [Items.encode, Closes, ihb, ih]
  | node ty body rest ihb ih => simp [Items.encode, Closes, ihb, ih]
  | link ty body mids rest ihb ihm ih => simp [Items.encode, Closes, ihb, ihm, ih]
  | loop ty body rest ihb ih => simp [Items.encode, Closes, ihb, ih]

theorem complete_node (t : NodeType) (I : Items) : Complete (Items.node t I .nil).encode := by
  refine ⟨t, none, _, rfl, ?_⟩
  rw [closes_encode I 0]
  simp [Closes, Items.encode]

/-! ## Placing tokens -/

theorem Spec.Places.append {isWs : NodeType → Bool} {a b : List Event} {ts us : List Token}
    {o p : List BuilderOp} (h : Places isWs a ts o) (h' : Places isWs b us p) :
    Places isWs (a ++ b) (ts ++ us) (o ++ p) := by
  induction h with
  | nil => exact h'
  | space hw _ ih => exact .space hw ih
  | start _ ih => exact .start ih
  | fin _ ih => exact .fin ih
  | token h1 h2 _ ih =>
    rw [List.append_assoc]
    exact .token h1 h2 ih
  | cached _ ih => exact .cached ih

theorem places_spaces {isWs : NodeType → Bool} (ts : List TokenText)
    (h : ∀ t ∈ ts, isWs t.1.ty = true) : Places isWs [] (ts.map (·.1)) (leaves ts) := by
  induction ts with
  | nil => exact .nil
  | cons t ts ih =>
    exact .space (h t (by simp)) (ih fun x hx => h x (List.mem_cons_of_mem _ hx))

theorem fits_drop {isWs : NodeType → Bool} {ns : List Nat} {ws ts : List Token}
    (hw : ∀ t ∈ ws, isWs t.ty = true) (h : Fits isWs ns (ws ++ ts)) : Fits isWs ns ts := by
  cases ns with
  | nil =>
    simp only [Fits, List.mem_append] at h ⊢
    exact fun t ht => h t (Or.inr ht)
  | cons n ns =>
    simp only [Fits] at h ⊢
    obtain ⟨vs, raw, rest, he, h1, h2, h3, h4⟩ := h
    rcases List.append_eq_append_iff.1 he with ⟨m, rfl, hm⟩ | ⟨m, rfl, hm⟩
    · refine ⟨m, raw, rest, hm, fun t ht => h1 t (by simp [ht]), h2, h3, h4⟩
    · -- the spaces reach into the group, which is then empty
      cases raw with
      | cons x raw =>
        cases m with
        | nil => exact ⟨[], x :: raw, rest, by simpa using hm.symm, by simp, h2, h3, h4⟩
        | cons y m =>
          simp only [List.cons_append, List.cons.injEq] at hm
          obtain ⟨rfl, _⟩ := hm
          have a := hw x (by simp)
          have b := h3 x (by simp)
          rw [a] at b
          cases b
      | nil =>
        simp only [List.nil_append] at hm
        subst hm
        refine ⟨[], [], ts, by simp, by simp, h2, h3, ?_⟩
        exact fits_drop (ws := m) (fun t ht => hw t (by simp [ht])) h4
termination_by ns.length

theorem spaces_append (cv : Convertor) (ts : List TokenText) :
    ts = cv.spaces ts ++ ts.drop (cv.spaces ts).length ∧
      (∀ t ∈ cv.spaces ts, cv.isWs t.1.ty = true) ∧
      cv.spaces (ts.drop (cv.spaces ts).length) = [] := by
  unfold Convertor.spaces
  induction ts with
  | nil => simp
  | cons t ts ih =>
    simp only [List.takeWhile_cons]
    split
    · rename_i h
      obtain ⟨h1, h2, h3⟩ := ih
      refine ⟨?_, ?_, ?_⟩
      · simp only [List.length_cons, List.drop_succ_cons, List.cons_append, List.cons.injEq,
          true_and]
        exact h1
      · simp only [List.mem_cons]
        rintro x (rfl | hx)
        · exact h
        · exact h2 x hx
      · simpa using h3
    · rename_i h
      simp [List.takeWhile_cons, h]

/-- Tokens that fit a group are spaces, then the group. -/
theorem fits_cons (cv : Convertor) {n : Nat} {ns : List Nat} {ts : List TokenText}
    (h : Fits cv.isWs (n :: ns) (ts.map (·.1))) :
    n ≤ (ts.drop (cv.spaces ts).length).length ∧
      (∀ t ∈ (ts.drop (cv.spaces ts).length).take n, cv.isWs t.1.ty = false) ∧
      Fits cv.isWs ns (((ts.drop (cv.spaces ts).length).drop n).map (·.1)) := by
  obtain ⟨h1, h2, h3⟩ := spaces_append cv ts
  generalize ts.drop (cv.spaces ts).length = us at h1 h3 ⊢
  rw [h1, List.map_append] at h
  have h := fits_drop (by
    intro t ht
    obtain ⟨x, hx, rfl⟩ := List.mem_map.1 ht
    exact h2 x hx) h
  simp only [Fits] at h
  obtain ⟨ws, raw, rest, he, hw, hlen, hraw, hrest⟩ := h
  cases ws with
  | cons w ws =>
    cases us with
    | nil => simp at he
    | cons u us =>
      simp only [List.map_cons, List.cons_append, List.cons.injEq] at he
      obtain ⟨rfl, he⟩ := he
      simp [Convertor.spaces, List.takeWhile_cons, hw u.1 (by simp)] at h3
  | nil =>
    simp only [List.nil_append] at he
    have hl : n ≤ us.length := by
      have := congrArg List.length he
      simp only [List.length_map, List.length_append] at this
      omega
    have ht : (us.map (·.1)).take n = raw := by rw [he, ← hlen]; simp
    have hd : (us.map (·.1)).drop n = rest := by rw [he, ← hlen]; simp
    refine ⟨hl, ?_, ?_⟩
    · intro t ht'
      refine hraw t.1 ?_
      rw [← ht, ← List.map_take]
      exact List.mem_map.2 ⟨t, ht', rfl⟩
    · rw [List.map_drop, hd]
      exact hrest

theorem counts_append (a b : List Event) : counts (a ++ b) = counts a ++ counts b := by
  simp [counts]

theorem take_spaces (cv : Convertor) (ts : List TokenText) {k : Nat}
    (hk : k ≤ (cv.spaces ts).length) : ∀ t ∈ ts.take k, cv.isWs t.1.ty = true := by
  obtain ⟨h1, h2, _⟩ := spaces_append cv ts
  intro t ht
  refine h2 t ?_
  rw [h1, List.take_append_of_le_length hk] at ht
  exact List.mem_of_mem_take ht

theorem Forest.append_leaves (f : Forest) (ts : List TokenText) :
    ∃ g : Forest, f.ops ++ leaves ts = g.ops := by
  induction f with
  | nil =>
    induction ts with
    | nil => exact ⟨.nil, rfl⟩
    | cons t ts ih =>
      obtain ⟨g, hg⟩ := ih
      refine ⟨.leaf t.1.ty t.1.len g, ?_⟩
      simp only [Forest.ops, List.nil_append] at hg ⊢
      rw [← hg]
      rfl
  | leaf ty len rest ih =>
    obtain ⟨g, hg⟩ := ih
    exact ⟨.leaf ty len g, by simp [Forest.ops, ← hg]⟩
  | node ty kids rest _ ih =>
    obtain ⟨g, hg⟩ := ih
    exact ⟨.node ty kids g, by simp [Forest.ops, ← hg]⟩

theorem Forest.leaves_append (ts : List TokenText) (f : Forest) :
    ∃ g : Forest, leaves ts ++ f.ops = g.ops := by
  induction ts with
  | nil => exact ⟨f, rfl⟩
  | cons t ts ih =>
    obtain ⟨g, hg⟩ := ih
    exact ⟨.leaf t.1.ty t.1.len g, by simp only [Forest.ops, ← hg]; rfl⟩

theorem fits_take (cv : Convertor) {ns : List Nat} {ts : List TokenText} {k : Nat}
    (hk : k ≤ (cv.spaces ts).length) (h : Fits cv.isWs ns (ts.map (·.1))) :
    Fits cv.isWs ns ((ts.drop k).map (·.1)) := by
  have hs := take_spaces cv ts hk
  rw [← List.take_append_drop k ts, List.map_append] at h
  refine fits_drop ?_ h
  intro t ht
  obtain ⟨x, hx, rfl⟩ := List.mem_map.1 ht
  exact hs x hx

/-- `fill` places the tokens of the events up to the end of the node. -/
theorem fill_ok (cv : Convertor) (hb : BoundedBinder cv.binder) (n : Nat) (c : List Event)
    (ts : List TokenText) (ns : List Nat) (rest : List Event) (hc : Closes 1 (c ++ [.fin]))
    (hn : c.length + 1 ≤ n) (hf : Fits cv.isWs (counts c ++ ns) (ts.map (·.1))) :
    ∃ (f : Forest) (ts1 ts2 : List TokenText),
      cv.fill n ts (c ++ .fin :: rest) = some (f.ops, ts2, rest) ∧ ts = ts1 ++ ts2 ∧
      Places cv.isWs c (ts1.map (·.1)) f.ops ∧ Fits cv.isWs ns (ts2.map (·.1)) := by
  induction n generalizing c ts ns rest with
  | zero => omega
  | succ n ih =>
    cases c with
    | nil => exact ⟨.nil, [], ts, rfl, rfl, .nil, by simpa [counts] using hf⟩
    | cons e c =>
      simp only [List.length_cons] at hn
      cases e with
      | fin => simp [Closes] at hc
      | cached k m =>
        simp only [List.cons_append, Closes] at hc
        obtain ⟨f, ts1, ts2, h1, h2, h3, h4⟩ := ih c ts ns rest hc (by omega)
          (by simpa [counts] using hf)
        exact ⟨f, ts1, ts2, by simpa [Convertor.fill] using h1, h2, .cached h3, h4⟩
      | token ty m =>
        simp only [List.cons_append, Closes] at hc
        have hf' : Fits cv.isWs (m :: (counts c ++ ns)) (ts.map (·.1)) := by
          simpa [counts] using hf
        obtain ⟨g1, g2, g3⟩ := fits_cons cv hf'
        obtain ⟨s1, s2, s3⟩ := spaces_append cv ts
        obtain ⟨f, ts1, ts2, h1, h2, h3, h4⟩ := ih c _ ns rest hc (by omega) g3
        obtain ⟨g, hg⟩ := Forest.leaves_append (cv.spaces ts)
          (.leaf ty (((ts.drop (cv.spaces ts).length).take m).map fun t => t.1.len).sum f)
        refine ⟨g, cv.spaces ts ++ ((ts.drop (cv.spaces ts).length).take m ++ ts1), ts2, ?_, ?_, ?_,
          h4⟩
        · simp only [Convertor.fill, List.cons_append]
          rw [if_neg (by omega), h1]
          simp only [Option.bind_eq_bind, Option.bind_some, Option.some.injEq, Prod.mk.injEq,
            and_true]
          rw [← hg]
          rfl
        · rw [List.append_assoc, List.append_assoc, ← h2, List.take_append_drop]
          exact s1
        · rw [← hg, List.map_append, List.map_append]
          refine (places_spaces _ s2).append ?_
          have := Places.token (isWs := cv.isWs) (ty := ty) (n := m)
            (raw := ((ts.drop (cv.spaces ts).length).take m).map (·.1))
            (by rw [List.length_map, List.length_take]; omega) (by
              intro t ht
              obtain ⟨x, hx, rfl⟩ := List.mem_map.1 ht
              exact g2 x hx) h3
          simpa [Forest.ops, List.map_map, Function.comp_def] using this
      | start ty fp =>
        simp only [List.cons_append, Closes] at hc
        obtain ⟨a, b0, hab, hca, hcb⟩ := closes_split (a := 0) (b := 0) hc
        obtain ⟨b, rfl⟩ := closes_last hcb
        have hcab : c = a ++ .fin :: b := by
          have : c ++ [Event.fin] = (a ++ .fin :: b) ++ [.fin] := by simpa using hab
          exact List.append_cancel_right this
        subst hcab
        simp only [List.length_append, List.length_cons] at hn
        have hspl : (cv.spacesForBinder ts).length = (cv.spaces ts).length := by
          simp [Convertor.spacesForBinder]
        have hown := hb ty (cv.spacesForBinder ts) true
        let left := (cv.spacesForBinder ts).length - cv.binder ty (cv.spacesForBinder ts) true
        have hleft : left ≤ (cv.spaces ts).length := by
          simp only [left, ← hspl]; omega
        have hf1 : Fits cv.isWs (counts a ++ (counts b ++ ns)) ((ts.drop left).map (·.1)) := by
          refine fits_take cv hleft ?_
          simpa [counts] using hf
        obtain ⟨f1, u1, u2, p1, p2, p3, p4⟩ := ih a (ts.drop left) (counts b ++ ns)
          (b ++ .fin :: rest) hca (by omega) hf1
        have hright := hb ty (cv.spacesForBinder u2) false
        have hspl2 : (cv.spacesForBinder u2).length = (cv.spaces u2).length := by
          simp [Convertor.spacesForBinder]
        let right := cv.binder ty (cv.spacesForBinder u2) false
        have hr : right ≤ (cv.spaces u2).length := by
          simp only [right, ← hspl2]; exact hright
        have hlen : (cv.spaces u2).length ≤ u2.length := by
          simp only [Convertor.spaces]
          exact (List.takeWhile_prefix _).length_le
        obtain ⟨f2, v1, v2, q1, q2, q3, q4⟩ := ih b (u2.drop right) ns rest hcb (by omega)
          (fits_take cv hr p4)
        obtain ⟨g1, hg1⟩ := Forest.append_leaves f1 (u2.take right)
        obtain ⟨g2, hg2⟩ := Forest.leaves_append (ts.take left) (.node ty g1 f2)
        refine ⟨g2, ts.take left ++ (u1 ++ (u2.take right ++ v1)), v2, ?_, ?_, ?_, q4⟩
        · have hgo : cv.goWith (cv.fill n) ty (ts.drop left) (a ++ .fin :: (b ++ .fin :: rest)) =
              some (.start ty :: (f1.ops ++ leaves (u2.take right) ++ [.finish]), u2.drop right,
                b ++ .fin :: rest) := by
            simp only [Convertor.goWith, p1, Option.bind_eq_bind, Option.bind_some]
            rw [if_neg (by simp only [right] at hr; omega)]
          simp only [Convertor.fill, List.cons_append, List.append_assoc]
          rw [if_neg (by omega)]
          simp only [left] at hgo
          rw [hgo]
          simp only [Option.bind_eq_bind, Option.bind_some, q1, Option.some.injEq, Prod.mk.injEq,
            and_true]
          rw [← hg2]
          simp only [Forest.ops, ← hg1, left]
          simp
        · conv => lhs; rw [← List.take_append_drop left ts, p2, ← List.take_append_drop right u2, q2]
          simp
        · rw [← hg2]
          simp only [Forest.ops, ← hg1, List.map_append]
          have w1 := places_spaces (isWs := cv.isWs) (ts.take left) (take_spaces cv ts hleft)
          have w2 := places_spaces (isWs := cv.isWs) (u2.take right) (take_spaces cv u2 hr)
          have w3 := Places.fin (isWs := cv.isWs) q3
          have w4 := Places.start (isWs := cv.isWs) (ty := ty) (fp := fp) (p3.append (w2.append w3))
          have := w1.append w4
          simpa [List.append_assoc] using this

/-- `fill` stops at the end of the node. -/
theorem fill_inv (cv : Convertor) (n : Nat) (ts ts' : List TokenText) (es es' : List Event)
    (ops : List BuilderOp) (h : cv.fill n ts es = some (ops, ts', es')) :
    ∃ c, es = c ++ .fin :: es' ∧ Closes 1 (c ++ [.fin]) := by
  induction n generalizing ts ts' es es' ops with
  | zero => simp [Convertor.fill] at h
  | succ n ih =>
    cases es with
    | nil => simp [Convertor.fill] at h
    | cons e es =>
      cases e with
      | fin =>
        simp only [Convertor.fill, Option.some.injEq, Prod.mk.injEq] at h
        obtain ⟨_, _, rfl⟩ := h
        exact ⟨[], rfl, by simp [Closes]⟩
      | cached k m =>
        simp only [Convertor.fill] at h
        obtain ⟨c, rfl, hc⟩ := ih _ _ _ _ _ h
        exact ⟨.cached k m :: c, rfl, by simpa [Closes] using hc⟩
      | token ty m =>
        simp only [Convertor.fill] at h
        split at h
        · cases h
        · simp only [Option.bind_eq_bind, Option.bind_eq_some_iff, Prod.exists, Option.some.injEq,
            Prod.mk.injEq] at h
          obtain ⟨o, t1, e1, h1, _, rfl, rfl⟩ := h
          obtain ⟨c, rfl, hc⟩ := ih _ _ _ _ _ h1
          exact ⟨.token ty m :: c, rfl, by simpa [Closes] using hc⟩
      | start ty fp =>
        simp only [Convertor.fill] at h
        split at h
        · cases h
        · simp only [Option.bind_eq_bind, Option.bind_eq_some_iff, Prod.exists, Option.some.injEq,
            Prod.mk.injEq] at h
          obtain ⟨o, t1, e1, h1, o2, t2, e2, h2, _, rfl, rfl⟩ := h
          simp only [Convertor.goWith, Option.bind_eq_bind, Option.bind_eq_some_iff, Prod.exists] at h1
          obtain ⟨o3, t3, e3, h3, h1⟩ := h1
          split at h1
          · cases h1
          · simp only [Option.some.injEq, Prod.mk.injEq] at h1
            obtain ⟨_, _, rfl⟩ := h1
            obtain ⟨a, rfl, ha⟩ := ih _ _ _ _ _ h3
            obtain ⟨b, rfl, hb⟩ := ih _ _ _ _ _ h2
            refine ⟨.start ty fp :: (a ++ .fin :: b), by simp, ?_⟩
            have := closes_join (a := 0) (b := 0) ha hb
            simpa [Closes] using this

/-! ## Re-nesting -/

theorem links_starts {events : List Event} {fuel idx : Nat} {ps : List (Nat × NodeType)}
    (h : links events fuel idx = .ok ps) :
    ps ≠ [] ∧ ∀ p ∈ ps, ∃ fp, events[p.1]? = some (.start p.2 fp) := by
  induction fuel generalizing idx ps with
  | zero => cases h
  | succ fuel ih =>
    unfold links at h
    split at h
    · rename_i ty he
      cases h
      exact ⟨by simp, by simpa using ⟨none, he⟩⟩
    · rename_i ty fwd he
      simp only [bind, Result.bind] at h
      split at h
      · rename_i rest hr
        cases h
        obtain ⟨_, h2⟩ := ih hr
        refine ⟨by simp, ?_⟩
        simp only [List.mem_cons]
        rintro p (rfl | hp)
        · exact ⟨_, he⟩
        · exact h2 p hp
      · cases h
      · cases h
    · cases h

/-- Re-nesting moves only starts of nodes. -/
theorem reshuffleFrom_tokens {events : List Event} {i : Nat} {es : List Event} {holes : List Nat}
    {R : List Event} (hes : events.drop i = es)
    (hh : ∀ h ∈ holes, ∃ ty fp, events[h]? = some (.start ty fp))
    (h : reshuffleFrom events i es holes = .ok R) : tokenEvents R = tokenEvents es := by
  induction es generalizing i holes R with
  | nil => cases h; rfl
  | cons e es ih =>
    have hei : events[i]? = some e := by rw [← List.head?_drop, hes]; rfl
    have hes' : events.drop (i + 1) = es := by rw [← List.tail_drop, hes]; rfl
    unfold reshuffleFrom at h
    split at h
    · rename_i hhole
      have hmem : i ∈ holes := List.mem_of_mem_head? hhole
      obtain ⟨ty, fp, hst⟩ := hh i hmem
      rw [hei] at hst
      cases hst
      rw [ih hes' (fun h hm => hh h (List.mem_of_mem_tail hm)) h]
      simp [tokenEvents]
    · split at h
      · rename_i ty fwd
        simp only [bind, Result.bind] at h
        split at h
        · rename_i ps hps
          obtain ⟨_, hst⟩ := links_starts hps
          split at h
          · rename_i rest hrest
            cases h
            have := ih hes' (by
              intro h hm
              rcases List.mem_append.1 hm with hm | hm
              · obtain ⟨p, hp, rfl⟩ := List.mem_map.1 (List.mem_of_mem_tail hm)
                obtain ⟨fp, hfp⟩ := hst p hp
                exact ⟨_, _, hfp⟩
              · exact hh h hm) hrest
            rw [tokenEvents_append, this]
            have hz : tokenEvents (ps.reverse.map fun p => Event.start p.2 none) = [] := by
              rw [tokenEvents, List.filter_eq_nil_iff]
              intro a ha
              obtain ⟨p, _, rfl⟩ := List.mem_map.1 ha
              simp
            rw [hz]
            simp [tokenEvents]
          · cases h
          · cases h
        · cases h
        · cases h
      · simp only [bind, Result.bind] at h
        split at h
        · rename_i rest hrest
          cases h
          have := ih hes' hh hrest
          simp only [tokenEvents, List.filter_cons] at this ⊢
          rw [this]
        · cases h
        · cases h

/-- A part of the re-nested events that closes as many nodes as the events and the pending links do
is all of them. -/
theorem reshuffleFrom_closes {events : List Event} {i : Nat} {es : List Event} {holes : List Nat}
    {R c rest : List Event} {d : Nat} (hes : events.drop i = es)
    (hh : ∀ h ∈ holes, ∃ ty fp, events[h]? = some (.start ty fp))
    (h : reshuffleFrom events i es holes = .ok R) (hcl : Closes (d + 1) es) (hR : R = c ++ rest)
    (hc : Closes (d + 1 + holes.length) c) : rest = [] := by
  induction es generalizing i holes R d c with
  | nil => simp [Closes] at hcl
  | cons e es ih =>
    have hei : events[i]? = some e := by rw [← List.head?_drop, hes]; rfl
    have hes' : events.drop (i + 1) = es := by rw [← List.tail_drop, hes]; rfl
    unfold reshuffleFrom at h
    split at h
    · rename_i hhole
      obtain ⟨hd, tl, rfl⟩ : ∃ hd tl, holes = hd :: tl := by
        cases holes with
        | nil => simp at hhole
        | cons hd tl => exact ⟨_, _, rfl⟩
      simp only [List.head?_cons, Option.some.injEq] at hhole
      subst hhole
      obtain ⟨ty, fp, hst⟩ := hh hd (by simp)
      rw [hei] at hst
      cases hst
      refine ih (d := d + 1) hes' (fun h hm => hh h (List.mem_of_mem_tail hm)) h hcl hR ?_
      simp only [List.tail_cons]
      rw [show d + 1 + 1 + tl.length = d + 1 + (hd :: tl).length by simp; omega]
      exact hc
    · split at h
      · rename_i ty fwd _
        simp only [bind, Result.bind] at h
        split at h
        · rename_i ps hps
          obtain ⟨hne, hst⟩ := links_starts hps
          split at h
          · rename_i R' hrest
            cases h
            -- the starts are at the beginning of `c`
            have key : ∀ (qs : List (Nat × NodeType)) (k : Nat) (c : List Event),
                qs.map (fun p => Event.start p.2 none) ++ R' = c ++ rest → Closes (k + 1) c →
                ∃ c', R' = c' ++ rest ∧ Closes (k + 1 + qs.length) c' := by
              intro qs
              induction qs with
              | nil => exact fun k c h1 h2 => ⟨c, by simpa using h1, h2⟩
              | cons q qs ihq =>
                intro k c h1 h2
                cases c with
                | nil => simp [Closes] at h2
                | cons x c =>
                  simp only [List.map_cons, List.cons_append, List.cons.injEq] at h1
                  obtain ⟨rfl, h1⟩ := h1
                  obtain ⟨c', h3, h4⟩ := ihq (k + 1) c h1 h2
                  refine ⟨c', h3, ?_⟩
                  simp only [List.length_cons]
                  rw [show k + 1 + (qs.length + 1) = k + 1 + 1 + qs.length by omega]
                  exact h4
            obtain ⟨c', h3, h4⟩ := key ps.reverse (d + holes.length) c hR (by
              rw [show d + holes.length + 1 = d + 1 + holes.length by omega]; exact hc)
            refine ih (d := d + 1) hes' (by
              intro h hm
              rcases List.mem_append.1 hm with hm | hm
              · obtain ⟨p, hp, rfl⟩ := List.mem_map.1 (List.mem_of_mem_tail hm)
                obtain ⟨fp, hfp⟩ := hst p hp
                exact ⟨_, _, hfp⟩
              · exact hh h hm) hrest hcl h3 ?_
            have hpl : 0 < ps.length := List.length_pos_iff.2 hne
            rw [List.length_append, List.length_tail, List.length_map]
            rw [List.length_reverse] at h4
            rw [show d + 1 + 1 + (ps.length - 1 + holes.length) =
              d + holes.length + 1 + ps.length by omega]
            exact h4
          · cases h
          · cases h
        · cases h
        · cases h
      · simp only [bind, Result.bind] at h
        split at h
        · rename_i e hno R' hrest
          cases h
          cases c with
          | nil => simp [Closes] at hc
          | cons x c =>
            simp only [List.cons_append, List.cons.injEq] at hR
            obtain ⟨rfl, hR⟩ := hR
            rename_i x _ _
            cases x with
            | start ty fp =>
              refine ih (d := d + 1) hes' hh hrest hcl hR ?_
              simp only [Closes] at hc
              rw [show d + 1 + 1 + holes.length = d + 1 + holes.length + 1 by omega]
              exact hc
            | token ty n =>
              simp only [Closes] at hc hcl
              exact ih hes' hh hrest hcl hR hc
            | cached k n =>
              simp only [Closes] at hc hcl
              exact ih hes' hh hrest hcl hR hc
            | fin =>
              cases d with
              | zero =>
                simp only [Closes] at hcl
                subst hcl
                cases hrest
                simp at hR
                exact hR.2
              | succ d =>
                simp only [Closes] at hcl
                rw [show d + 1 + 1 + holes.length = d + holes.length + 2 by omega] at hc
                simp only [Closes] at hc
                refine ih hes' hh hrest hcl hR ?_
                rw [show d + 1 + holes.length = d + holes.length + 1 by omega]
                exact hc
        · cases h
        · cases h

end Fall
