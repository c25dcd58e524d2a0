import Verif.Lemmas.ConvertMain

/-! Where the converter puts whitespace. -/

namespace Fall

open Spec Convert

theorem IsLexing.token {lexer : Lexer Nat} {text : List Nat} {ts : List Token}
    (h : IsLexing lexer text ts) {m : Nat} {t : Token} (hm : ts[m]? = some t) :
    lexer (text.drop ((ts.take m).map (·.len)).sum) = t := by
  induction ts generalizing text m with
  | nil => simp at hm
  | cons u ts ih =>
    obtain ⟨h1, h2, h3, h4⟩ := h
    cases m with
    | zero => simp at hm; simp [h1, hm]
    | succ m =>
      simp only [List.getElem?_cons_succ] at hm
      have := ih h4 hm
      simpa [List.drop_drop] using this

theorem plainStrings_of_lexer {d : Definition} (hd : SpacelessStrings d) {text : List Nat}
    {tokens : List Token} (hl : IsLexing d.lexer text tokens)
    (cache : Option (CacheMap × List Event)) :
    PlainStrings (Env.new cache d.grammar d.isWs text tokens) d.isWs := by
  intro ty w hr start k _ hw m t ht hws
  simp only [Env.new] at ht hw ⊢
  generalize ho : ((tokens.take m).map (·.len)).sum = o
  have hlex := IsLexing.token hl ht
  rw [ho] at hlex
  by_cases h1 : o ≤ start
  · exact Or.inl h1
  by_cases h2 : start + w.length ≤ o
  · exact Or.inr h2
  exfalso
  obtain ⟨rest, hrest⟩ := hw
  have hdrop : text.drop o = w.drop (o - start) ++ rest := by
    rw [← List.drop_append_of_le_length (by omega), hrest, List.drop_drop]
    congr 1
    omega
  have := hd ty w hr (w.drop (o - start)) rest (List.drop_suffix _ _)
    (by intro h; have := congrArg List.length h; simp at this; omega)
    (by intro h; have := congrArg List.length h; simp at this; omega)
  rw [← hdrop, hlex, hws] at this
  cases this

/-! ## Nodes of a forest -/

/-- All nodes satisfy `Q`. -/
def Forest.All (Q : NodeType → Forest → Prop) : Forest → Prop
  | .nil => True
  | .leaf _ _ rest => rest.All Q
  | .node ty kids rest => Q ty kids ∧ kids.All Q ∧ rest.All Q

theorem Forest.ops_unique (f g : Forest) (X Y : List BuilderOp)
    (h : f.ops ++ .finish :: X = g.ops ++ .finish :: Y) : f = g ∧ X = Y := by
  induction f generalizing g X Y with
  | nil => cases g <;> simp_all [Forest.ops]
  | leaf ty len rest ih =>
    cases g with
    | leaf ty' len' rest' =>
      simp only [Forest.ops, List.cons_append, List.cons.injEq, BuilderOp.leaf.injEq] at h
      obtain ⟨⟨rfl, rfl⟩, h⟩ := h
      obtain ⟨rfl, rfl⟩ := ih _ _ _ h
      exact ⟨rfl, rfl⟩
    | _ => simp [Forest.ops] at h
  | node ty kids rest ihk ih =>
    cases g with
    | node ty' kids' rest' =>
      simp only [Forest.ops, List.cons_append, List.append_assoc, List.cons.injEq,
        BuilderOp.start.injEq] at h
      obtain ⟨rfl, h⟩ := h
      obtain ⟨rfl, h'⟩ := ihk _ _ _ h
      obtain ⟨rfl, rfl⟩ := ih _ _ _ h'
      exact ⟨rfl, rfl⟩
    | _ => simp [Forest.ops] at h

theorem Forest.All.occ {Q : NodeType → Forest → Prop} (f : Forest) (hf : f.All Q)
    (tail pre post : List BuilderOp) (ty : NodeType) (k : Forest)
    (h : f.ops ++ tail = pre ++ .start ty :: (k.ops ++ .finish :: post)) :
    Q ty k ∨ ∃ pre', pre = f.ops ++ pre' ∧ tail = pre' ++ .start ty :: (k.ops ++ .finish :: post) := by
  induction f generalizing tail pre post with
  | nil => exact Or.inr ⟨pre, rfl, h⟩
  | leaf t l rest ih =>
    cases pre with
    | nil => simp [Forest.ops] at h
    | cons p pre =>
      simp only [Forest.ops, List.cons_append, List.cons.injEq] at h
      obtain ⟨rfl, h⟩ := h
      rcases ih hf _ _ _ h with h' | ⟨pre', rfl, h'⟩
      · exact Or.inl h'
      · exact Or.inr ⟨pre', rfl, h'⟩
  | node t kids rest ihk ih =>
    obtain ⟨hq, hk, hr⟩ := hf
    cases pre with
    | nil =>
      simp only [Forest.ops, List.cons_append, List.append_assoc, List.nil_append, List.cons.injEq,
        BuilderOp.start.injEq] at h
      obtain ⟨rfl, h⟩ := h
      obtain ⟨rfl, _⟩ := Forest.ops_unique _ _ _ _ h
      exact Or.inl hq
    | cons p pre =>
      simp only [Forest.ops, List.cons_append, List.append_assoc, List.cons.injEq] at h
      obtain ⟨rfl, h⟩ := h
      rcases ihk hk _ _ _ h with h' | ⟨pre', rfl, h'⟩
      · exact Or.inl h'
      clear h
      cases pre' with
      | nil => simp at h'
      | cons p pre' =>
        simp only [List.cons_append, List.cons.injEq] at h'
        obtain ⟨rfl, h'⟩ := h'
        rcases ih hr _ _ _ h' with h'' | ⟨pre'', rfl, h''⟩
        · exact Or.inl h''
        · exact Or.inr ⟨pre'', by simp [Forest.ops], h''⟩

theorem Forest.all_leaves {Q : NodeType → Forest → Prop} (ts : List TokenText) (f : Forest)
    (hf : f.All Q) : ∃ g : Forest, leaves ts ++ f.ops = g.ops ∧ g.All Q := by
  induction ts with
  | nil => exact ⟨f, rfl, hf⟩
  | cons t ts ih =>
    obtain ⟨g, hg, ha⟩ := ih
    exact ⟨.leaf t.1.ty t.1.len g, by simp only [Forest.ops, ← hg]; rfl, ha⟩

theorem Forest.all_append {Q : NodeType → Forest → Prop} (f : Forest) (hf : f.All Q)
    (ts : List TokenText) : ∃ g : Forest, f.ops ++ leaves ts = g.ops ∧ g.All Q := by
  induction f with
  | nil =>
    obtain ⟨g, hg, ha⟩ := Forest.all_leaves ts .nil hf
    exact ⟨g, by simpa [Forest.ops] using hg, ha⟩
  | leaf ty len rest ih =>
    obtain ⟨g, hg, ha⟩ := ih hf
    exact ⟨.leaf ty len g, by simp [Forest.ops, ← hg], ha⟩
  | node ty kids rest _ ih =>
    obtain ⟨hq, hk, hr⟩ := hf
    obtain ⟨g, hg, ha⟩ := ih hr
    exact ⟨.node ty kids g, by simp [Forest.ops, ← hg], hq, hk, ha⟩

/-! ## Where whitespace goes -/

/-- A node for which the binder asks for nothing has no whitespace at its ends. -/
def Trimmed (cv : Convertor) (ty : NodeType) (kids : Forest) : Prop :=
  (∀ spaces leading, cv.binder ty spaces leading = 0) →
    (∀ o, kids.ops.head? = some o → IsSpace cv.isWs o = false) ∧
    (∀ o, kids.ops.getLast? = some o → IsSpace cv.isWs o = false)

theorem fill_trimmed (cv : Convertor) (n : Nat) (ts ts' : List TokenText) (es es' : List Event)
    (ops : List BuilderOp) (hty : ∀ ty k, .token ty k ∈ es → cv.isWs ty = false)
    (h : cv.fill n ts es = some (ops, ts', es')) :
    ∃ f : Forest, ops = f.ops ∧ f.All (Trimmed cv) ∧
      (cv.spaces ts = [] → ∀ o, ops.head? = some o → IsSpace cv.isWs o = false) ∧
      (∀ o, ops.getLast? = some o → IsSpace cv.isWs o = false) ∧
      (ops = [] → ts' = ts) ∧ (∀ ty k, .token ty k ∈ es' → .token ty k ∈ es) := by
  induction n generalizing ts ts' es es' ops with
  | zero => simp [Convertor.fill] at h
  | succ n ih =>
    cases es with
    | nil => simp [Convertor.fill] at h
    | cons e es =>
      cases e with
      | fin =>
        simp only [Convertor.fill, Option.some.injEq, Prod.mk.injEq] at h
        obtain ⟨rfl, rfl, rfl⟩ := h
        exact ⟨.nil, rfl, trivial, by simp, by simp, by simp, by simp⟩
      | cached k m =>
        simp only [Convertor.fill] at h
        obtain ⟨f, h1, h2, h3, h4, h5, h6⟩ := ih _ _ _ _ _ (fun ty k hm => hty ty k (by simp [hm])) h
        exact ⟨f, h1, h2, h3, h4, h5, fun ty k hm => List.mem_cons_of_mem _ (h6 ty k hm)⟩
      | token ty m =>
        simp only [Convertor.fill] at h
        split at h
        · cases h
        · simp only [Option.bind_eq_bind, Option.bind_eq_some_iff, Prod.exists, Option.some.injEq,
            Prod.mk.injEq] at h
          obtain ⟨o, t1, e1, h1, rfl, rfl, rfl⟩ := h
          have hts := hty ty m (by simp)
          obtain ⟨f, rfl, h2, h3, h4, h5, h6⟩ := ih _ _ _ _ _
            (fun ty k hm => hty ty k (by simp [hm])) h1
          obtain ⟨g, hg, ha⟩ := Forest.all_leaves (Q := Trimmed cv) (cv.spaces ts)
            (.leaf ty (((ts.drop (cv.spaces ts).length).take m).map fun t => t.1.len).sum f) h2
          refine ⟨g, hg, ha, ?_, ?_, ?_, fun ty k hm => List.mem_cons_of_mem _ (h6 ty k hm)⟩
          · intro hs o ho
            rw [hs] at ho
            simp only [leaves, List.map_nil, List.nil_append, List.head?_cons,
              Option.some.injEq] at ho
            subst ho
            exact hts
          · intro o ho
            rw [List.getLast?_append] at ho
            cases hl : f.ops.getLast? with
            | none =>
              have : f.ops = [] := by simpa using hl
              simp [this] at ho
              subst ho
              exact hts
            | some x =>
              rw [List.getLast?_cons, hl] at ho
              simp at ho
              subst ho
              exact h4 _ hl
          · simp
      | start ty fp =>
        simp only [Convertor.fill] at h
        split at h
        · cases h
        · simp only [Option.bind_eq_bind, Option.bind_eq_some_iff, Prod.exists, Option.some.injEq,
            Prod.mk.injEq] at h
          obtain ⟨o, t1, e1, h1, o2, t2, e2, h2, rfl, rfl, rfl⟩ := h
          obtain ⟨oi, u, hfill, _, rfl, rfl⟩ := goWith_inv h1
          obtain ⟨f1, rfl, p1, p2, p3, p4, p5⟩ := ih _ _ _ _ _
            (fun ty k hm => hty ty k (by simp [hm])) hfill
          obtain ⟨f2, rfl, q1, q2, q3, q4, q5⟩ := ih _ _ _ _ _
            (fun ty k hm => hty ty k (List.mem_cons_of_mem _ (p5 ty k hm))) h2
          obtain ⟨g1, hg1, ha1⟩ := Forest.all_append f1 p1
            (u.take (cv.binder ty (cv.spacesForBinder u) false))
          have htrim : Trimmed cv ty g1 := by
            intro hz
            have h0 : u.take (cv.binder ty (cv.spacesForBinder u) false) = [] := by simp [hz]
            rw [h0] at hg1
            simp only [leaves, List.map_nil, List.append_nil] at hg1
            rw [← hg1]
            refine ⟨p2 ?_, p3⟩
            rw [hz, Nat.sub_zero]
            have := (spaces_append cv ts).2.2
            simpa [Convertor.spacesForBinder] using this
          obtain ⟨g, hg, ha⟩ := Forest.all_leaves (Q := Trimmed cv)
            (ts.take ((cv.spacesForBinder ts).length - cv.binder ty (cv.spacesForBinder ts) true))
            (.node ty g1 f2) ⟨htrim, ha1, q1⟩
          refine ⟨g, ?_, ha, ?_, ?_, ?_, fun ty k hm => List.mem_cons_of_mem _ (p5 ty k (q5 ty k hm))⟩
          · rw [← hg]
            simp [Forest.ops, ← hg1]
          · intro hs o ho
            have : (cv.spacesForBinder ts).length = 0 := by simp [Convertor.spacesForBinder, hs]
            simp only [this, Nat.zero_sub, List.take_zero, leaves, List.map_nil, List.nil_append,
              List.cons_append, List.head?_cons, Option.some.injEq] at ho
            subst ho
            rfl
          · intro o ho
            cases hl : f2.ops.getLast? with
            | none =>
              have : f2.ops = [] := by simpa using hl
              rw [this, List.append_nil, List.getLast?_append, List.getLast?_cons,
                List.getLast?_append] at ho
              simp at ho
              subst ho
              rfl
            | some x =>
              rw [List.getLast?_append, hl] at ho
              simp at ho
              subst ho
              exact q3 _ hl
          · simp

/-- The same for a whole conversion. -/
theorem convert_trimmed {cv : Convertor} {text : List Nat} {tokens : List Token}
    {events : List Event} {ops : List BuilderOp}
    (hty : ∀ ty k, .token ty k ∈ events → cv.isWs ty = false)
    (h : cv.convert text tokens events = .ok ops) :
    ∃ ty f, ops = (Forest.node ty f .nil).ops ∧ f.All (Trimmed cv) := by
  obtain ⟨rty, fp, rest, tt, ts', es', h1, h2, h3⟩ := convert_inv h
  obtain ⟨o, u, h4, _, rfl, _⟩ := goWith_inv h3
  have htok := reshuffleFrom_tokens rfl (by simp) h1
  obtain ⟨f, rfl, hf, _⟩ := fill_trimmed cv _ _ _ _ _ _ (by
    intro ty k hm
    refine hty ty k ?_
    have : Event.token ty k ∈ tokenEvents (.start rty fp :: rest) := by
      simp [tokenEvents, hm]
    rw [htok] at this
    exact (List.mem_filter.1 this).1) h4
  obtain ⟨g, hg, ha⟩ := Forest.all_append f hf (u.take (cv.binder rty (cv.spacesForBinder u) false))
  exact ⟨rty, g, by simp [Forest.ops, ← hg], ha⟩

/-- With a binder that never asks for whitespace, leading whitespace comes first. -/
theorem fill_leading (cv : Convertor) (n : Nat) (ts ts' : List TokenText) (es es' : List Event)
    (ops : List BuilderOp)
    (hz : ∀ ty fp, .start ty fp ∈ es → ∀ spaces leading, cv.binder ty spaces leading = 0)
    (h : cv.fill n ts es = some (ops, ts', es')) :
    ops = [] ∨ ∃ rest, ops = leaves (cv.spaces ts) ++ rest := by
  induction n generalizing ts ts' es es' ops with
  | zero => simp [Convertor.fill] at h
  | succ n ih =>
    cases es with
    | nil => simp [Convertor.fill] at h
    | cons e es =>
      cases e with
      | fin =>
        simp only [Convertor.fill, Option.some.injEq, Prod.mk.injEq] at h
        exact Or.inl h.1.symm
      | cached k m =>
        simp only [Convertor.fill] at h
        exact ih _ _ _ _ _ (fun ty fp hm => hz ty fp (by simp [hm])) h
      | token ty m =>
        simp only [Convertor.fill] at h
        split at h
        · cases h
        · simp only [Option.bind_eq_bind, Option.bind_eq_some_iff, Prod.exists, Option.some.injEq,
            Prod.mk.injEq] at h
          obtain ⟨o, t1, e1, h1, rfl, rfl, rfl⟩ := h
          exact Or.inr ⟨_, rfl⟩
      | start ty fp =>
        simp only [Convertor.fill] at h
        split at h
        · cases h
        · simp only [Option.bind_eq_bind, Option.bind_eq_some_iff, Prod.exists, Option.some.injEq,
            Prod.mk.injEq] at h
          obtain ⟨o, t1, e1, h1, o2, t2, e2, h2, rfl, rfl, rfl⟩ := h
          right
          rw [hz ty fp (by simp), Nat.sub_zero, List.append_assoc]
          have : ts.take (cv.spacesForBinder ts).length = cv.spaces ts := by
            simp only [Convertor.spacesForBinder, List.length_map]
            exact (List.prefix_iff_eq_take.1 (List.takeWhile_prefix _)).symm
          rw [this]
          exact ⟨_, rfl⟩

theorem endsWithToken_append {a b : List Event} (h : EndsWithToken (a ++ b)) :
    EndsWithToken b ∨ EndsWithToken a ∧ ∀ e ∈ b, e = .fin ∨ ∃ k n, e = .cached k n := by
  induction a with
  | nil => exact Or.inl h
  | cons e a ih =>
    cases e with
    | token ty n =>
      simp only [List.cons_append, EndsWithToken] at h ⊢
      rcases h with h | h
      · rcases ih h with h | ⟨h1, h2⟩
        · exact Or.inl h
        · exact Or.inr ⟨Or.inl h1, h2⟩
      · exact Or.inr ⟨Or.inr fun e he => h e (by simp [he]), fun e he => h e (by simp [he])⟩
    | _ => exact ih h

/-- With a binder that never asks for whitespace, trailing whitespace is left over. -/
theorem fill_trailing (cv : Convertor) (hb : BoundedBinder cv.binder) (n : Nat)
    (ts ts' : List TokenText) (es' c : List Event) (ns : List Nat) (ops : List BuilderOp)
    (hz : ∀ ty fp, .start ty fp ∈ c → ∀ spaces leading, cv.binder ty spaces leading = 0)
    (hc : Closes 1 (c ++ [.fin])) (hn : c.length + 1 ≤ n)
    (hf : Fits cv.isWs (counts c ++ ns) (ts.map (·.1))) (hp : ∀ k ∈ counts c, 0 < k)
    (h : cv.fill n ts (c ++ .fin :: es') = some (ops, ts', es')) :
    ((∀ e ∈ c, e = .fin ∨ ∃ k n, e = .cached k n) → ts' = ts) ∧
    (EndsWithToken c → ∃ x y, ts = x ++ y :: ts' ∧ cv.isWs y.1.ty = false) := by
  induction n generalizing ts ts' es' c ns ops with
  | zero => simp [Convertor.fill] at h
  | succ n ih =>
    cases c with
    | nil =>
      simp only [List.nil_append, Convertor.fill, Option.some.injEq, Prod.mk.injEq] at h
      exact ⟨fun _ => h.2.1.symm, fun h => by simp [EndsWithToken] at h⟩
    | cons e c =>
      simp only [List.length_cons] at hn
      cases e with
      | fin => simp [Closes] at hc
      | cached k m =>
        simp only [List.cons_append, Closes] at hc
        simp only [List.cons_append, Convertor.fill] at h
        have := ih ts ts' es' c ns ops (fun ty fp hm => hz ty fp (by simp [hm])) hc (by omega)
          (by simpa [counts] using hf) (by simpa [counts] using hp) h
        exact ⟨fun hh => this.1 fun e he => hh e (by simp [he]), this.2⟩
      | token ty m =>
        simp only [List.cons_append, Closes] at hc
        have hf' : Fits cv.isWs (m :: (counts c ++ ns)) (ts.map (·.1)) := by
          simpa [counts] using hf
        have hp' : 0 < m ∧ ∀ k ∈ counts c, 0 < k := by simpa [counts] using hp
        obtain ⟨g1, g2, g3⟩ := fits_cons cv hf'
        obtain ⟨s1, s2, s3⟩ := spaces_append cv ts
        simp only [List.cons_append, Convertor.fill] at h
        rw [if_neg (by omega)] at h
        simp only [Option.bind_eq_bind, Option.bind_eq_some_iff, Prod.exists, Option.some.injEq,
          Prod.mk.injEq] at h
        obtain ⟨o, t1, e1, h1, _, rfl, rfl⟩ := h
        have := ih _ _ _ c ns _ (fun ty fp hm => hz ty fp (by simp [hm])) hc (by omega) g3 hp'.2 h1
        refine ⟨fun hh => ?_, ?_⟩
        · have := hh (.token ty m) (by simp)
          simp at this
        · intro he
          generalize ts.drop (cv.spaces ts).length = us at *
          rcases he with he | he
          · obtain ⟨x, y, h2, h3⟩ := this.2 he
            refine ⟨cv.spaces ts ++ (us.take m ++ x), y, ?_, h3⟩
            rw [List.append_assoc, List.append_assoc, ← h2, List.take_append_drop]
            exact s1
          · have h2 := this.1 he
            rw [h2]
            have hlt : m - 1 < us.length := by omega
            refine ⟨cv.spaces ts ++ us.take (m - 1), us[m - 1], ?_, g2 _ ?_⟩
            · rw [List.append_assoc]
              conv => lhs; rw [s1, ← List.take_append_drop (m - 1) us]
              rw [List.drop_eq_getElem_cons hlt, show m - 1 + 1 = m by omega]
            · rw [List.mem_take_iff_getElem]
              exact ⟨m - 1, by omega, rfl⟩
      | start ty fp =>
        simp only [List.cons_append, Closes] at hc
        obtain ⟨a, b0, hab, hca, hcb⟩ := closes_split (a := 0) (b := 0) hc
        obtain ⟨b, rfl⟩ := closes_last hcb
        have hcab : c = a ++ .fin :: b := by
          have : c ++ [Event.fin] = (a ++ .fin :: b) ++ [.fin] := by simpa using hab
          exact List.append_cancel_right this
        subst hcab
        simp only [List.length_append, List.length_cons] at hn
        have hspl : (cv.spacesForBinder ts).length = (cv.spaces ts).length := by
          simp [Convertor.spacesForBinder]
        simp only [List.cons_append, List.append_assoc, Convertor.fill] at h
        rw [hz ty fp (by simp), if_neg (by omega), Nat.sub_zero] at h
        simp only [Option.bind_eq_bind, Option.bind_eq_some_iff, Prod.exists, Option.some.injEq,
          Prod.mk.injEq] at h
        obtain ⟨o, t1, e1, h1, o2, t2, e2, h2, _, rfl, rfl⟩ := h
        obtain ⟨oi, u, hfill, _, _, hu⟩ := goWith_inv h1
        rw [hz ty fp (by simp), List.drop_zero] at hu
        subst hu
        have hfa : Fits cv.isWs (counts a ++ (counts b ++ ns))
            ((ts.drop (cv.spacesForBinder ts).length).map (·.1)) := by
          refine fits_take cv (by omega) ?_
          simpa [counts] using hf
        obtain ⟨f, ts1, ts2, k1, k2, _, k4⟩ := fill_ok cv hb n a _ (counts b ++ ns)
          (b ++ .fin :: e2) hca (by omega) hfa
        rw [hfill] at k1
        cases k1
        have hpa : (∀ k ∈ counts a, 0 < k) ∧ ∀ k ∈ counts b, 0 < k := by
          constructor <;>
          · intro k hk
            refine hp k ?_
            simp only [counts, List.filterMap_cons, List.filterMap_append, List.mem_append] at hk ⊢
            first | exact Or.inl hk | exact Or.inr hk
        have ia := ih _ _ _ a (counts b ++ ns) _ (fun ty fp hm => hz ty fp (by simp [hm])) hca
          (by omega) hfa hpa.1 hfill
        have ib := ih _ _ _ b ns _ (fun ty fp hm => hz ty fp (by simp [hm])) hcb (by omega) k4
          hpa.2 h2
        refine ⟨fun hh => ?_, ?_⟩
        · have := hh (.start ty fp) (by simp)
          simp at this
        · intro he
          have hsp := List.take_append_drop (cv.spacesForBinder ts).length ts
          rcases endsWithToken_append (a := a) (b := .fin :: b) he with he | ⟨he, hfin⟩
          · obtain ⟨x, y, h3, h4⟩ := ib.2 he
            refine ⟨ts.take (cv.spacesForBinder ts).length ++ (ts1 ++ x), y, ?_, h4⟩
            rw [List.append_assoc, List.append_assoc, ← h3, ← k2, hsp]
          · have h3 := ib.1 fun e he => hfin e (by simp [he])
            obtain ⟨x, y, h4, h5⟩ := ia.2 he
            refine ⟨ts.take (cv.spacesForBinder ts).length ++ x, y, ?_, h5⟩
            rw [List.append_assoc, h3, ← h4, hsp]

/-- If no node begins after the last token, the whitespace at the end of the file is at the end of
the root, and the whitespace at the beginning is at the beginning of the root. -/
theorem convert_file_ends (cv : Convertor) (hb : BoundedBinder cv.binder) {text : List Nat}
    {tokens : List Token} {events c : List Event} {ty : NodeType} {fp : Option Nat}
    (hroot : ∀ spaces, cv.binder ty spaces false = spaces.length)
    (hlen : (tokens.map (·.len)).sum ≤ text.length)
    (hr : reshuffle events = .ok (.start ty fp :: (c ++ [.fin]))) (hc : Closes 1 (c ++ [.fin]))
    (hf : Fits cv.isWs (counts c) tokens) (hpos : ∀ k ∈ counts c, 0 < k)
    (hz : ∀ ty fp, .start ty fp ∈ c → ∀ spaces leading, cv.binder ty spaces leading = 0)
    (hlast : EndsWithToken c) :
    ∃ (o : List BuilderOp) (x : List Token) (y : Token) (trail : List Token),
      tokens = x ++ y :: trail ∧ cv.isWs y.ty = false ∧ (∀ t ∈ trail, cv.isWs t.ty = true) ∧
      cv.convert text tokens events = .ok (.start ty ::
        (((x.takeWhile fun t => cv.isWs t.ty).map fun t => .leaf t.ty t.len) ++ o ++
          (trail.map fun t => .leaf t.ty t.len) ++ [.finish])) := by
  obtain ⟨tt, h1, h2⟩ := tokenTexts_some hlen
  obtain ⟨f, ts1, ts2, h3, h4, h5, h6⟩ := fill_ok cv hb (c ++ [Event.fin]).length c tt [] [] hc
    (by simp) (by simpa [h2] using hf)
  have hws : cv.spaces ts2 = ts2 := by
    unfold Convertor.spaces
    exact takeWhile_all fun t ht => h6 t.1 (List.mem_map.2 ⟨t, ht, rfl⟩)
  have hw : cv.binder ty (cv.spacesForBinder ts2) false = ts2.length := by
    rw [hroot]; simp [Convertor.spacesForBinder, hws]
  obtain ⟨x, y, h7, h8⟩ := (fill_trailing cv hb _ _ _ _ _ [] _ hz hc (by simp) (by simpa [h2] using hf)
    hpos h3).2 hlast
  have hne : f.ops ≠ [] := by
    intro h0
    rw [h0] at h5
    have : ∀ {es ts ops}, Places cv.isWs es ts ops → ops = [] → ¬ EndsWithToken es := by
      intro es ts ops hp
      induction hp with
      | nil => intro _ h; exact h
      | cached _ ih => intro h1 h2; exact ih h1 h2
      | _ => intro h; cases h
    exact this h5 rfl hlast
  have hlead : ∃ rest, f.ops = leaves (cv.spaces tt) ++ rest := by
    refine (fill_leading cv _ _ _ _ _ _ ?_ h3).resolve_left hne
    intro ty fp hm
    simp only [List.mem_append, List.mem_singleton, reduceCtorEq, or_false] at hm
    exact hz ty fp hm
  obtain ⟨o, ho⟩ := hlead
  have hsp : cv.spaces tt = x.takeWhile fun t => cv.isWs t.1.ty := by
    unfold Convertor.spaces
    rw [h7]
    clear h7
    induction x with
    | nil => simp [h8]
    | cons a x ih =>
      simp only [List.cons_append, List.takeWhile_cons]
      rw [ih]
  refine ⟨o, x.map (·.1), y.1, ts2.map (·.1), ?_, h8, fun t ht => h6 t ht, ?_⟩
  · rw [← h2, h7]; simp
  · simp only [Convertor.convert, hr, bind, Result.bind, h1, Result.ofOption, Convertor.goWith, h3,
      Option.bind_some, hw]
    rw [if_neg (by omega)]
    simp only [List.take_length, ho, hsp, pure, leaves, List.takeWhile_map, List.map_map]
    simp [Function.comp_def]

end Fall
