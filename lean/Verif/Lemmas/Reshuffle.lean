import Verif.Lemmas.Convert
import Verif.Lemmas.Terminates

/-! Re-nesting of encoded items. -/

namespace Fall

open Spec Convert

namespace Spec.Items

/-- Indices and types of a chain of linked nodes whose first one is at index `i`. -/
def heads : Nat → Items → List (Nat × NodeType)
  | i, node ty _ _ => [(i, ty)]
  | i, link ty body mids rest =>
    (i, ty) :: heads (i + (body.encode.length + mids.encode.length + 2)) rest
  | _, _ => []

/-- The re-nested events of a chain without the starts of its nodes. -/
def inner : Items → List Event
  | node _ body rest => body.resolve ++ .fin :: rest.resolve
  | link _ body mids rest => body.resolve ++ .fin :: (mids.resolve ++ rest.inner)
  | I => I.resolve

theorem resolveWith_heads (I : Items) (i : Nat) (first : List Event) (hw : I.WF) (hh : I.HeadNode) :
    resolveWith first I = ((heads i I).reverse.map fun p => Event.start p.2 none) ++
      (first ++ I.inner) := by
  induction I generalizing i first with
  | node ty body rest => simp [resolveWith, heads, inner, resolve]
  | link ty body mids rest _ _ ih =>
    simp only [WF] at hw
    rw [resolveWith, ih (i + (body.encode.length + mids.encode.length + 2)) _ hw.2.2.1 hw.2.2.2]
    simp [heads, inner, resolve]
  | _ => simp [HeadNode] at hh

theorem resolveWith_first (I : Items) (first : List Event) (h : ¬ I.HeadNode) (hw : I.WF) :
    resolveWith first I = first ++ I.resolve := by
  cases I <;> simp_all [resolve, resolveWith, HeadNode, WF]

theorem heads_ge (I : Items) (i : Nat) : ∀ p ∈ heads i I, i ≤ p.1 := by
  induction I generalizing i with
  | link ty body mids rest _ _ ih =>
    simp only [heads, List.mem_cons]
    rintro p (rfl | hp)
    · exact Nat.le_refl _
    · have := ih _ p hp; omega
  | _ => simp [heads]

theorem heads_length (I : Items) (i : Nat) : (heads i I).length ≤ I.encode.length := by
  induction I generalizing i with
  | link ty body mids rest _ _ ih =>
    have := ih (i + (body.encode.length + mids.encode.length + 2))
    simp only [heads, encode, List.length_cons, List.length_append]
    omega
  | _ => simp [heads, encode]

end Spec.Items

open Items in
theorem links_heads {events tail : List Event} (I : Items) (i fuel : Nat)
    (hd : events.drop i = I.encode ++ tail) (hw : I.WF) (hh : I.HeadNode)
    (hf : (heads i I).length ≤ fuel) : links events fuel i = .ok (heads i I) := by
  induction I generalizing i fuel tail with
  | node ty body rest =>
    have he : events[i]? = some (.start ty none) := by
      rw [← List.head?_drop, hd]; rfl
    cases fuel with
    | zero => simp [heads] at hf
    | succ fuel => simp only [links, he]; rfl
  | link ty body mids rest _ _ ih =>
    have he : events[i]? =
        some (.start ty (some (body.encode.length + mids.encode.length + 2))) := by
      rw [← List.head?_drop, hd]; rfl
    cases fuel with
    | zero => simp [heads] at hf
    | succ fuel =>
      have hd' : events.drop (i + (body.encode.length + mids.encode.length + 2)) =
          rest.encode ++ tail := by
        rw [← List.drop_drop, hd]
        simp only [encode, List.cons_append, List.append_assoc]
        rw [show body.encode.length + mids.encode.length + 2 =
          (body.encode.length + (mids.encode.length + 1)) + 1 by omega, List.drop_succ_cons]
        rw [← List.drop_drop, List.drop_left, List.drop_succ_cons, List.drop_left]
      have := ih _ fuel hd' hw.2.2.1 hw.2.2.2 (by simpa [heads] using hf)
      simp only [links, he, this, bind, Result.bind]
      rfl
  | _ => simp [HeadNode] at hh

theorem head_ne {holes : List Nat} {i k : Nat} (h : ∀ x ∈ holes, i + (k + 1) ≤ x) :
    ¬ holes.head? = some i := by
  intro he
  have := h i (List.mem_of_mem_head? he)
  omega

open Items in
/-- Re-nesting an encoded sequence of items (first part), or the rest of a chain whose starts were
already moved (second part). -/
theorem reshuffleFrom_encode {events : List Event} (I : Items) (hw : I.WF) :
    (∀ (i : Nat) (tail : List Event) (holes : List Nat) (R : List Event),
      events.drop i = I.encode ++ tail → (∀ h ∈ holes, i + I.encode.length ≤ h) →
      reshuffleFrom events (i + I.encode.length) tail holes = .ok R →
      reshuffleFrom events i (I.encode ++ tail) holes = .ok (I.resolve ++ R)) ∧
    (I.HeadNode → ∀ (i : Nat) (tail : List Event) (holes : List Nat) (R : List Event),
      events.drop i = I.encode ++ tail → (∀ h ∈ holes, i + I.encode.length ≤ h) →
      reshuffleFrom events (i + I.encode.length) tail holes = .ok R →
      reshuffleFrom events i (I.encode ++ tail) ((heads i I).map (·.1) ++ holes) =
        .ok (I.inner ++ R)) := by
  induction I with
  | nil => exact ⟨fun i tail holes R _ _ h => by simpa [encode, resolve, resolveWith] using h,
      fun h => by simp [HeadNode] at h⟩
  | tok ty n rest ih =>
    refine ⟨?_, fun h => by simp [HeadNode] at h⟩
    intro i tail holes R hd hh h
    have hd' : events.drop (i + 1) = rest.encode ++ tail := by
      rw [← List.drop_drop, hd]; rfl
    simp only [encode, List.length_cons] at hh h
    have := (ih hw).1 (i + 1) tail holes R hd' (fun x hx => by have := hh x hx; omega)
      (by rw [show i + 1 + rest.encode.length = i + (rest.encode.length + 1) by omega]; exact h)
    simp only [encode, List.cons_append, reshuffleFrom, if_neg (head_ne hh), this, bind, Result.bind]
    rfl
  | cached key body rest ihb ih =>
    refine ⟨?_, fun h => by simp [HeadNode] at h⟩
    intro i tail holes R hd hh h
    simp only [encode, List.length_cons, List.length_append] at hh h
    simp only [encode, List.cons_append, List.append_assoc] at hd
    have hd1 : events.drop (i + 1) = body.encode ++ (rest.encode ++ tail) := by
      rw [← List.drop_drop, hd]; rfl
    have hd2 : events.drop (i + 1 + body.encode.length) = rest.encode ++ tail := by
      rw [← List.drop_drop, hd1, List.drop_left]
    have h2 := (ih hw.2).1 (i + 1 + body.encode.length) tail holes R hd2
      (fun x hx => by have := hh x hx; omega)
      (by rw [show i + 1 + body.encode.length + rest.encode.length =
            i + (body.encode.length + rest.encode.length + 1) by omega]; exact h)
    have h1 := (ihb hw.1).1 (i + 1) _ holes _ hd1 (fun x hx => by have := hh x hx; omega) h2
    simp only [encode, List.cons_append, List.append_assoc, reshuffleFrom, if_neg (head_ne hh), h1,
      bind, Result.bind]
    simp [resolve, resolveWith, pure]
  | node ty body rest ihb ih =>
    -- what follows the start is the same in both cases
    have key : ∀ (i : Nat) (tail : List Event) (holes : List Nat) (R : List Event),
        events.drop i = (node ty body rest).encode ++ tail →
        (∀ h ∈ holes, i + (node ty body rest).encode.length ≤ h) →
        reshuffleFrom events (i + (node ty body rest).encode.length) tail holes = .ok R →
        reshuffleFrom events (i + 1) (body.encode ++ .fin :: (rest.encode ++ tail)) holes =
          .ok ((node ty body rest).inner ++ R) := by
      intro i tail holes R hd hh h
      simp only [encode, List.length_cons, List.length_append] at hh h
      simp only [encode, List.cons_append, List.append_assoc] at hd
      have hd1 : events.drop (i + 1) = body.encode ++ (.fin :: (rest.encode ++ tail)) := by
        rw [← List.drop_drop, hd]; rfl
      have hd2 : events.drop (i + 1 + body.encode.length) = .fin :: (rest.encode ++ tail) := by
        rw [← List.drop_drop, hd1, List.drop_left]
      have hd3 : events.drop (i + 1 + body.encode.length + 1) = rest.encode ++ tail := by
        rw [← List.drop_drop, hd2]; rfl
      have h3 := (ih hw.2).1 _ tail holes R hd3 (fun x hx => by have := hh x hx; omega)
        (by rw [show i + 1 + body.encode.length + 1 + rest.encode.length =
              i + (body.encode.length + (rest.encode.length + 1) + 1) by omega]; exact h)
      have h2 : reshuffleFrom events (i + 1 + body.encode.length) (.fin :: (rest.encode ++ tail)) holes
          = .ok (.fin :: (rest.resolve ++ R)) := by
        have hne : ¬ holes.head? = some (i + 1 + body.encode.length) :=
          head_ne (k := 0) fun x hx => by have := hh x hx; omega
        simp only [reshuffleFrom, if_neg hne, h3, bind, Result.bind]
        rfl
      have h1 := (ihb hw.1).1 (i + 1) _ holes _ hd1 (fun x hx => by have := hh x hx; omega) h2
      rw [h1]
      simp [inner]
    refine ⟨?_, fun _ => ?_⟩
    · intro i tail holes R hd hh h
      have h1 := key i tail holes R hd hh h
      simp only [encode, List.length_cons] at hh
      simp only [encode, List.cons_append, List.append_assoc, reshuffleFrom, if_neg (head_ne hh), h1,
        bind, Result.bind]
      simp [resolve, resolveWith, inner, pure]
    · intro i tail holes R hd hh h
      have h1 := key i tail holes R hd hh h
      simp only [encode, List.cons_append, List.append_assoc, reshuffleFrom, heads, List.map_cons,
        List.map_nil, List.nil_append, List.head?_cons, if_true, List.tail_cons]
      exact h1
  | link ty body mids rest ihb ihm ih =>
    obtain ⟨hwb, hwm, hwr, hrh⟩ := hw
    have key : ∀ (i : Nat) (tail : List Event) (holes : List Nat) (R : List Event),
        events.drop i = (link ty body mids rest).encode ++ tail →
        (∀ h ∈ holes, i + (link ty body mids rest).encode.length ≤ h) →
        reshuffleFrom events (i + (link ty body mids rest).encode.length) tail holes = .ok R →
        reshuffleFrom events (i + 1)
          (body.encode ++ .fin :: (mids.encode ++ (rest.encode ++ tail)))
          ((heads (i + (body.encode.length + mids.encode.length + 2)) rest).map (·.1) ++ holes) =
          .ok ((link ty body mids rest).inner ++ R) := by
      intro i tail holes R hd hh h
      simp only [encode, List.length_cons, List.length_append] at hh h
      simp only [encode, List.cons_append, List.append_assoc] at hd
      have hd1 : events.drop (i + 1) =
          body.encode ++ (.fin :: (mids.encode ++ (rest.encode ++ tail))) := by
        rw [← List.drop_drop, hd]; rfl
      have hd2 : events.drop (i + 1 + body.encode.length) =
          .fin :: (mids.encode ++ (rest.encode ++ tail)) := by
        rw [← List.drop_drop, hd1, List.drop_left]
      have hd3 : events.drop (i + 1 + body.encode.length + 1) =
          mids.encode ++ (rest.encode ++ tail) := by
        rw [← List.drop_drop, hd2]; rfl
      have hd4 : events.drop (i + 1 + body.encode.length + 1 + mids.encode.length) =
          rest.encode ++ tail := by
        rw [← List.drop_drop, hd3, List.drop_left]
      have hi : i + 1 + body.encode.length + 1 + mids.encode.length =
          i + (body.encode.length + mids.encode.length + 2) := by omega
      rw [hi] at hd4
      have hall : ∀ x ∈ (heads (i + (body.encode.length + mids.encode.length + 2)) rest).map (·.1) ++
          holes, i + (body.encode.length + mids.encode.length + 2) ≤ x := by
        intro x hx
        rcases List.mem_append.1 hx with hx | hx
        · obtain ⟨p, hp, rfl⟩ := List.mem_map.1 hx
          exact heads_ge _ _ p hp
        · have := hh x hx; omega
      have h4 := (ih hwr).2 hrh _ tail holes R hd4 (fun x hx => by have := hh x hx; omega)
        (by rw [show i + (body.encode.length + mids.encode.length + 2) + rest.encode.length =
              i + (body.encode.length + (mids.encode.length + rest.encode.length + 1) + 1) by omega]
            exact h)
      rw [← hi] at h4
      have h3 := (ihm hwm).1 _ _ _ _ hd3 (fun x hx => by rw [hi] at hx; have := hall x hx; omega) h4
      rw [hi] at h3
      have h2 : reshuffleFrom events (i + 1 + body.encode.length)
          (.fin :: (mids.encode ++ (rest.encode ++ tail)))
          ((heads (i + (body.encode.length + mids.encode.length + 2)) rest).map (·.1) ++ holes)
          = .ok (.fin :: (mids.resolve ++ (rest.inner ++ R))) := by
        have hne : ¬ (((heads (i + (body.encode.length + mids.encode.length + 2)) rest).map (·.1) ++
            holes).head? = some (i + 1 + body.encode.length)) :=
          head_ne (k := 0) fun x hx => by have := hall x hx; omega
        simp only [reshuffleFrom, if_neg hne, h3, bind, Result.bind]
        rfl
      have h1 := (ihb hwb).1 (i + 1) _ _ _ hd1 (fun x hx => by have := hall x hx; omega) h2
      rw [h1]
      simp [inner]
    refine ⟨?_, fun _ => ?_⟩
    · intro i tail holes R hd hh h
      have h1 := key i tail holes R hd hh h
      have hlen : i + (link ty body mids rest).encode.length ≤ events.length := by
        have := congrArg List.length hd
        simp only [List.length_drop, List.length_append, encode, List.length_cons] at this ⊢
        omega
      have hl := links_heads (link ty body mids rest) i (events.length + 1) hd
        ⟨hwb, hwm, hwr, hrh⟩ trivial (by
          have := heads_length (link ty body mids rest) i
          omega)
      have hr := resolveWith_heads (link ty body mids rest) i [] ⟨hwb, hwm, hwr, hrh⟩ trivial
      simp only [encode, List.length_cons] at hh
      simp only [encode, List.cons_append, List.append_assoc, reshuffleFrom, if_neg (head_ne hh), hl,
        bind, Result.bind]
      simp only [heads, List.map_cons, List.tail_cons, h1, resolve]
      rw [hr]
      simp [pure, heads]
    · intro i tail holes R hd hh h
      have h1 := key i tail holes R hd hh h
      simp only [encode, List.cons_append, List.append_assoc, reshuffleFrom, heads, List.map_cons,
        List.head?_cons, if_true, List.tail_cons]
      exact h1
  | loop ty body rest => simp [WF] at hw

/-- Re-nesting moves linked nodes into their parents. -/
theorem reshuffle_encode (I : Items) (hw : I.WF) : reshuffle I.encode = .ok I.resolve := by
  have := (reshuffleFrom_encode (events := I.encode) I hw).1 0 [] [] [] (by simp) (by simp) rfl
  simpa [reshuffle] using this

theorem nest_append (a b : List Event) (d : Nat) :
    nest d (a ++ b) = (nest d a).bind fun k => nest k b := by
  induction a generalizing d with
  | nil => rfl
  | cons e a ih =>
    cases e with
    | start ty fp => simp [nest, ih]
    | token ty n => simp [nest, ih]
    | cached k n => simp [nest, ih]
    | fin => cases d <;> simp [nest, ih]

theorem nest_mono (a : List Event) {d k : Nat} (m : Nat) (h : nest d a = some k) :
    nest (d + m) a = some (k + m) := by
  induction a generalizing d with
  | nil => simp [nest] at h ⊢; omega
  | cons e a ih =>
    cases e with
    | start ty fp =>
      simp only [nest] at h ⊢
      have := ih h
      rwa [show d + m + 1 = d + 1 + m by omega]
    | token ty n => simp only [nest] at h ⊢; exact ih h
    | cached k n => simp only [nest] at h ⊢; exact ih h
    | fin =>
      cases d with
      | zero => simp [nest] at h
      | succ d =>
        rw [show d + 1 + m = (d + m) + 1 by omega]
        simp only [nest] at h ⊢
        exact ih h

theorem nested_resolveWith (I : Items) (first : List Event) (hf : Nested first) :
    Nested (Items.resolveWith first I) := by
  have app : ∀ {a b : List Event}, Nested a → Nested b → Nested (a ++ b) := by
    intro a b ha hb
    unfold Nested at *
    rw [nest_append, ha]; exact hb
  have wrap : ∀ {ty : NodeType} {a b : List Event}, Nested a → Nested b →
      Nested (.start ty none :: (a ++ .fin :: b)) := by
    intro ty a b ha hb
    unfold Nested at *
    simp only [nest]
    rw [nest_append, nest_mono a 1 ha]
    exact hb
  induction I generalizing first with
  | nil => exact hf
  | tok ty n rest ih => exact app hf (by simpa [Nested, nest] using ih [] rfl)
  | cached key body rest ihb ih =>
    exact app hf (by simpa [Nested, nest] using app (ihb [] rfl) (ih [] rfl))
  | node ty body rest ihb ih => exact wrap (app hf (ihb [] rfl)) (ih [] rfl)
  | loop ty body rest ihb ih => exact wrap (app hf (ihb [] rfl)) (ih [] rfl)
  | link ty body mids rest ihb ihm ih =>
    exact ih _ (wrap (app hf (ihb [] rfl)) (ihm [] rfl))

theorem nested_resolve (I : Items) : Nested I.resolve := nested_resolveWith I [] rfl

/-! ## Which structures are read -/

namespace Spec.Items

theorem HeadNode.append {I J : Items} (h : I.HeadNode) : (I.append J).HeadNode := by
  cases I <;> simp_all [HeadNode, Items.append]

theorem WF.append {I J : Items} (h : I.WF) (h' : J.WF) : (I.append J).WF := by
  induction I with
  | nil => exact h'
  | tok ty n rest ih => exact ih h
  | cached key body rest _ ih => exact ⟨h.1, ih h.2⟩
  | node ty body rest _ ih => exact ⟨h.1, ih h.2⟩
  | link ty body mids rest _ _ ih =>
    obtain ⟨h1, h2, h3, h4⟩ := h
    exact ⟨h1, h2, ih h3, h4.append⟩
  | loop => exact absurd h (by simp [WF])

theorem WF.opens {I : Items} (h : I.WF) (ho : I.Opens) : I.HeadNode := by
  cases I <;> simp_all [WF, Opens, HeadNode]

theorem WF.under {I J : Items} (h : I.WF) (ho : I.Opens) (h' : J.WF) (hj : J.HeadNode) :
    (I.under J).WF ∧ (I.under J).HeadNode := by
  cases I with
  | node ty body rest => exact ⟨⟨h.1, h.2, h', hj⟩, trivial⟩
  | link ty body mids rest =>
    obtain ⟨h1, h2, h3, h4⟩ := h
    exact ⟨⟨h1, h2.append h3, h', hj⟩, trivial⟩
  | _ => simp_all [WF, Opens]

end Spec.Items

theorem binds_of_bindArgs {g : Grammar} {A A' : Args} {as : List (Nat × Nat)}
    (h : bindArgs g A as = some A') : Binds g A as A' := by
  induction as generalizing A with
  | nil =>
    cases h
    exact .nil
  | cons x as ih =>
    obtain ⟨i, a⟩ := x
    unfold bindArgs at h
    split at h
    · cases h
    · rename_i k hk
      split at h
      · rename_i b hb
        split at h
        · rename_i hi
          exact .passOn hi hk hb (ih h)
        · cases h
      · cases h
    · rename_i rule hv hk
      split at h
      · rename_i hi
        exact .value hi (fun j hj => hv j (by rw [hj] at hk; exact (Option.some.inj hk).symm)) (ih h)
      · cases h

theorem bindArgs_passed {g : Grammar} {A A' : Args} {as : List (Nat × Nat)} {e body : Nat}
    (he : g.rules[e]? = some (.call body as)) (h : bindArgs g A as = some A') (hA : A.Passed g) :
    A'.Passed g := (binds_of_bindArgs h).passed he (fun _ h => h) hA

/-- Structures read by a grammar with sound links are well formed. -/
theorem Spec.Derives.wf {env : Env} (hl : LinksOk env) {args : List (Option Nat)} {g : Goal}
    {i j : Nat} {I : Items} (h : Derives env args g i j I) (hA : Args.Passed env.grammar args) :
    match g with
    | .chain t _ lhs => .pratt t ∈ env.grammar.rules → lhs.WF → (t.infixes ≠ [] → lhs ≠ .nil) →
        I.WF ∧ (lhs.HeadNode → I.HeadNode)
    | .pratt t _ => .pratt t ∈ env.grammar.rules → I.WF
    | .operand t => .pratt t ∈ env.grammar.rules → I.WF ∧ (t.infixes ≠ [] → I ≠ .nil)
    | .rhs t _ => .pratt t ∈ env.grammar.rules → I.WF
    | _ => I.WF := by
  induction h with
  | pub _ _ _ ih => exact ⟨ih hA, trivial⟩
  | pubReplaced _ _ _ _ ih => exact ⟨ih hA, trivial⟩
  | andCommit _ _ _ _ ih => exact (ih hA).append ⟨trivial, trivial⟩
  | withSkipSkipped _ _ _ _ ih1 ih2 => exact ⟨ih1 hA, ih2 hA⟩
  | layer _ _ _ _ ih => exact ih hA
  | layerLeftover _ _ _ _ _ _ ih1 ih2 => exact (ih1 hA).append ⟨ih2 hA, trivial⟩
  | layerSkipped _ _ _ _ _ ih => exact ⟨ih hA, trivial⟩
  | pratt he _ ih => exact ih hA (List.mem_of_getElem? he)
  | call he hb _ ih => exact ih (bindArgs_passed he hb hA)
  | inject _ _ _ ih1 ih2 => exact (ih1 hA).append (ih2 hA)
  | injectLinked he _ _ ho hb ih1 ih2 =>
    exact ((ih1 hA).under ho (ih2 hA) (hl.inject _ _ (List.mem_of_getElem? he) _ _ _ _ hA hb)).1
  | cached _ _ ih => exact ⟨ih hA, trivial⟩
  | allCons _ _ ih1 ih2 => exact (ih1 hA).append (ih2 hA)
  | manyCons _ _ ih1 ih2 => exact (ih1 hA).append (ih2 hA)
  | prattChain _ _ ih1 ih2 =>
    intro ht
    obtain ⟨h1, h2⟩ := ih1 hA ht
    exact (ih2 hA ht h1 h2).1
  | atom ha hd ih => exact fun ht => ⟨ih hA, fun hi => hl.atom _ _ ht hi ha _ _ _ _ hA hd⟩
  | prefixOp _ _ _ _ ih1 ih2 =>
    exact fun ht => ⟨⟨(ih1 hA).append (ih2 hA ht), trivial⟩, fun _ => by simp⟩
  | chainEnd => exact fun _ h _ => ⟨h, id⟩
  | chainOp _ _ _ _ _ ho _ ih1 ih2 ih3 =>
    intro ht hw _
    obtain ⟨h1, h2⟩ := ih3 hA ht ⟨(ih1 hA).append (ih2 hA ht), trivial⟩ (fun _ => by simp)
    have := hw.under ho h1 (h2 trivial)
    exact ⟨this.1, fun _ => this.2⟩
  | chainLoop hix _ _ _ _ _ _ _ _ =>
    exact fun _ _ h => absurd rfl (h (List.ne_nil_of_mem hix))
  | rhsNone _ => exact fun _ => trivial
  | rhsSome _ _ ih => exact ih hA
  | rhsMissing _ => exact fun _ => ⟨trivial, trivial⟩
  | _ => first | exact (by assumption : _ → _) hA | trivial

end Fall
