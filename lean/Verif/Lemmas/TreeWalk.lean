import Verif.Lemmas.Tree

/-! Helper lemmas about traversals and structural edits. -/

namespace Fall
open Spec

theorem mapM_total {F : Nat → Option β} {P : Nat → β → Prop} [Inhabited β] {cs : List Nat}
    (h : ∀ c ∈ cs, ∃ l, F c = some l ∧ P c l) :
    ∃ G : Nat → β, cs.mapM F = some (cs.map G) ∧ ∀ c ∈ cs, F c = some (G c) ∧ P c (G c) := by
  refine ⟨fun c => (F c).getD default, ?_, ?_⟩
  · induction cs with
    | nil => rfl
    | cons c cs ih =>
      obtain ⟨l, hl, _⟩ := h c (by simp)
      have := ih (fun d hd => h d (by simp [hd]))
      simp [List.mapM_cons, hl, this]
  · intro c hc
    obtain ⟨l, hl, hp⟩ := h c hc
    simp [hl, hp]

/-- Order of a children-first traversal. -/
def PostOrd (f : File α) (x y : Nat) : Prop := (Desc f y x ∧ x ≠ y) ∨ Before f x y

/-- Order of a parent-first traversal. -/
def PreOrd (f : File α) (x y : Nat) : Prop := (Desc f x y ∧ x ≠ y) ∨ Before f x y

theorem before_irrefl {f : File α} (hc : Consistent f.nodes) {x : Nat} : ¬ Before f x x := by
  rintro ⟨n, cs, c, d, h1, h2, h3, h4⟩
  have hcc : Child f n c := ⟨cs, h1, h2.subset (by simp)⟩
  have hcd : Child f n d := ⟨cs, h1, h2.subset (by simp)⟩
  have hn := (child_spec hc hcc).2.1
  rw [children_kids hn] at h1
  cases h1
  have hne : c ≠ d := by
    have := (kids_nodup hc hn).sublist h2
    simpa using this
  exact siblings_disjoint hc hcc hcd hne h3 h4

theorem subtreeN_spec {f : File α} (hc : Consistent f.nodes) (fuel n : Nat) (hn : IsNode f n)
    (hf : f.nodes.length ≤ fuel + n) :
    ∃ l, f.subtreeN fuel n = some (l ++ [n]) ∧
      (∀ m, m ∈ l ++ [n] ↔ Desc f n m) ∧ (l ++ [n]).Pairwise (PostOrd f) ∧
      (∀ (σ : Type) (g : σ → Nat → Option σ) s,
        f.bottomUpN g fuel s n = (l ++ [n]).foldlM g s) := by
  induction fuel generalizing n with
  | zero => have : n < f.nodes.length := hn; omega
  | succ fuel ih =>
    have hk : ∀ c ∈ kids f n, ∃ l, f.subtreeN fuel c = some l ∧ (∀ m, m ∈ l ↔ Desc f c m) ∧
        l.Pairwise (PostOrd f) ∧ (∀ (σ : Type) (g : σ → Nat → Option σ) s,
        f.bottomUpN g fuel s c = l.foldlM g s) := by
      intro c hck
      obtain ⟨h1, h2, _⟩ := kids_spec hc hn hck
      obtain ⟨l, e1, e2⟩ := ih c h2 (by omega)
      exact ⟨_, e1, e2⟩
    obtain ⟨G, hG, hP⟩ := mapM_total hk
    have hmem : ∀ m, m ∈ ((kids f n).map G).flatten ↔ ∃ c, c ∈ kids f n ∧ Desc f c m := by
      intro m
      simp only [List.mem_flatten, List.mem_map]
      constructor
      · rintro ⟨l, ⟨c, h1, rfl⟩, h2⟩
        exact ⟨c, h1, ((hP c h1).2.1 m).1 h2⟩
      · rintro ⟨c, h1, h2⟩
        exact ⟨_, ⟨c, h1, rfl⟩, ((hP c h1).2.1 m).2 h2⟩
    refine ⟨((kids f n).map G).flatten, ?_, ?_, ?_, ?_⟩
    · simp [File.subtreeN, children_kids hn, hG]
    · intro m
      rw [List.mem_append, hmem, List.mem_singleton]
      constructor
      · rintro (⟨c, h1, h2⟩ | rfl)
        · exact .step (child_iff.2 ⟨hn, h1⟩) h2
        · exact .refl _
      · intro h
        cases h with
        | refl => exact .inr rfl
        | @step _ c _ h1 h2 => exact .inl ⟨c, (child_iff.1 h1).2, h2⟩
    · rw [List.pairwise_append]
      refine ⟨?_, by simp, ?_⟩
      · rw [List.pairwise_flatten]
        constructor
        · intro l hl
          obtain ⟨c, h1, rfl⟩ := List.mem_map.1 hl
          exact (hP c h1).2.2.1
        · rw [List.pairwise_map, List.pairwise_iff_forall_sublist]
          intro c d hcd x hx y hy
          have h1 : c ∈ kids f n := hcd.subset (by simp)
          have h2 : d ∈ kids f n := hcd.subset (by simp)
          exact .inr ⟨n, kids f n, c, d, children_kids hn, hcd, ((hP c h1).2.1 x).1 hx,
            ((hP d h2).2.1 y).1 hy⟩
      · intro x hx y hy
        rw [List.mem_singleton] at hy
        subst hy
        obtain ⟨c, h1, h2⟩ := (hmem x).1 hx
        have hch := child_iff.2 ⟨hn, h1⟩
        refine .inl ⟨.step hch h2, ?_⟩
        have := desc_le hc h2
        have := (child_spec hc hch).1
        omega
    · intro σ g s
      have hfold : ∀ (cs : List Nat), (∀ c ∈ cs, c ∈ kids f n) → ∀ s,
          cs.foldlM (f.bottomUpN g fuel) s = (cs.map G).flatten.foldlM g s := by
        intro cs
        induction cs with
        | nil => intro _ s; rfl
        | cons c cs ih2 =>
          intro hsub s
          simp only [List.foldlM_cons, List.map_cons, List.flatten_cons, List.foldlM_append]
          rw [(hP c (hsub c (by simp))).2.2.2 σ g s]
          congr 1
          funext s'
          exact ih2 (fun d hd => hsub d (by simp [hd])) s'
      simp [File.bottomUpN, children_kids hn, hfold (kids f n) (fun _ h => h) s, List.foldlM_append]

theorem walkTreeN_spec {f : File α} (hc : Consistent f.nodes) (fuel n : Nat) (hn : IsNode f n)
    (hf : f.nodes.length ≤ fuel + n) :
    ∃ l, (∀ m, m ∈ n :: l ↔ Desc f n m) ∧ (n :: l).Pairwise (PreOrd f) ∧
      (∀ (σ : Type) (g : σ → Nat → Option σ) s,
        f.walkTreeN g fuel s n = (n :: l).foldlM g s) := by
  induction fuel generalizing n with
  | zero => have : n < f.nodes.length := hn; omega
  | succ fuel ih =>
    have hk : ∀ c ∈ kids f n, ∃ l : List Nat, (∀ m, m ∈ l ↔ Desc f c m) ∧
        l.Pairwise (PreOrd f) ∧ (∀ (σ : Type) (g : σ → Nat → Option σ) s,
        f.walkTreeN g fuel s c = l.foldlM g s) := by
      intro c hck
      obtain ⟨h1, h2, _⟩ := kids_spec hc hn hck
      obtain ⟨l, e2⟩ := ih c h2 (by omega)
      exact ⟨_, e2⟩
    obtain ⟨G, hP⟩ : ∃ G : Nat → List Nat, ∀ c ∈ kids f n, (∀ m, m ∈ G c ↔ Desc f c m) ∧
        (G c).Pairwise (PreOrd f) ∧ (∀ (σ : Type) (g : σ → Nat → Option σ) s,
        f.walkTreeN g fuel s c = (G c).foldlM g s) := by
      refine ⟨fun c => if h : c ∈ kids f n then (hk c h).choose else [], ?_⟩
      intro c h
      simp only [h, dif_pos]
      exact (hk c h).choose_spec
    have hmem : ∀ m, m ∈ ((kids f n).map G).flatten ↔ ∃ c, c ∈ kids f n ∧ Desc f c m := by
      intro m
      simp only [List.mem_flatten, List.mem_map]
      constructor
      · rintro ⟨l, ⟨c, h1, rfl⟩, h2⟩
        exact ⟨c, h1, ((hP c h1).1 m).1 h2⟩
      · rintro ⟨c, h1, h2⟩
        exact ⟨_, ⟨c, h1, rfl⟩, ((hP c h1).1 m).2 h2⟩
    refine ⟨((kids f n).map G).flatten, ?_, ?_, ?_⟩
    · intro m
      rw [List.mem_cons, hmem]
      constructor
      · rintro (rfl | ⟨c, h1, h2⟩)
        · exact .refl _
        · exact .step (child_iff.2 ⟨hn, h1⟩) h2
      · intro h
        cases h with
        | refl => exact .inl rfl
        | @step _ c _ h1 h2 => exact .inr ⟨c, (child_iff.1 h1).2, h2⟩
    · rw [List.pairwise_cons]
      refine ⟨?_, ?_⟩
      · intro x hx
        obtain ⟨c, h1, h2⟩ := (hmem x).1 hx
        have hch := child_iff.2 ⟨hn, h1⟩
        refine .inl ⟨.step hch h2, ?_⟩
        have := desc_le hc h2
        have := (child_spec hc hch).1
        omega
      · rw [List.pairwise_flatten]
        constructor
        · intro l hl
          obtain ⟨c, h1, rfl⟩ := List.mem_map.1 hl
          exact (hP c h1).2.1
        · rw [List.pairwise_map, List.pairwise_iff_forall_sublist]
          intro c d hcd x hx y hy
          have h1 : c ∈ kids f n := hcd.subset (by simp)
          have h2 : d ∈ kids f n := hcd.subset (by simp)
          exact .inr ⟨n, kids f n, c, d, children_kids hn, hcd, ((hP c h1).1 x).1 hx,
            ((hP d h2).1 y).1 hy⟩
    · intro σ g s
      have hfold : ∀ (cs : List Nat), (∀ c ∈ cs, c ∈ kids f n) → ∀ s,
          cs.foldlM (f.walkTreeN g fuel) s = (cs.map G).flatten.foldlM g s := by
        intro cs
        induction cs with
        | nil => intro _ s; rfl
        | cons c cs ih2 =>
          intro hsub s
          simp only [List.foldlM_cons, List.map_cons, List.flatten_cons, List.foldlM_append]
          rw [(hP c (hsub c (by simp))).2.2 σ g s]
          congr 1
          funext s'
          exact ih2 (fun d hd => hsub d (by simp [hd])) s'
      simp only [File.walkTreeN, children_kids hn, List.foldlM_cons, Option.bind_eq_bind,
        Option.bind_some]
      congr 1
      funext s'
      exact hfold (kids f n) (fun _ h => h) s'

/-! ## Text of nodes -/

section
variable {f : File α} (hf : ConsistentFile f)
include hf

theorem node_range_le {n : Nat} (hn : IsNode f n) : (rng f n).stop ≤ f.text.length := by
  have h1 := desc_range hf.nodes (root_desc hf.nodes hn)
  have h2 := hf.covers
  rw [range_rng (root_isNode hf.nodes)] at h2
  simp only [Option.some.injEq] at h2
  rw [h2] at h1
  exact h1.2

theorem root_rng : rng f 0 = ⟨0, f.text.length⟩ := by
  have h2 := hf.covers
  rw [range_rng (root_isNode hf.nodes)] at h2
  simpa using h2

theorem textOf_eq {n : Nat} (hn : IsNode f n) :
    f.textOf n = some (bytes f.text (rng f n).start (rng f n).stop) := by
  have h1 := rng_valid hf.nodes hn
  have h2 := node_range_le hf hn
  have h3 := piece_copy (Text.ofBuf_wf f.text) (Text.asStr_ofBuf f.text) (rng f n)
  simp only [h1, h2, and_self, if_true, TextEditOp.piece] at h3
  simp [File.textOf, range_rng hn, h3]

theorem mapM_textOf {ns : List Nat} (h : ∀ n ∈ ns, IsNode f n) :
    ns.mapM f.textOf = some (ns.map fun n => bytes f.text (rng f n).start (rng f n).stop) := by
  induction ns with
  | nil => rfl
  | cons n ns ih =>
    simp [List.mapM_cons, textOf_eq hf (h n (by simp)), ih (fun m hm => h m (by simp [hm]))]

omit hf in
theorem tiles_bytes (text : List α) (g : Nat → TextRange) {cs : List Nat} {a b : Nat}
    (h : Tiles (cs.map g) a b) :
    (cs.map fun c => bytes text (g c).start (g c).stop).flatten = bytes text a b := by
  induction cs generalizing a with
  | nil => simp [Tiles] at h; subst h; simp [bytes_self]
  | cons c cs ih =>
    obtain ⟨h1, h2, h3⟩ := h
    have := tiles_le h3
    simp only [List.map_cons, List.flatten_cons, ih h3, h1]
    exact bytes_append_bytes text (by omega) (by omega)

/-- The leaves of a subtree, in the order of the traversal, spell its text. -/
theorem leaves_bytes (fuel n : Nat) (hn : IsNode f n) (hfu : f.nodes.length ≤ fuel + n) :
    ∃ l, f.subtreeN fuel n = some l ∧
      ((l.filter fun m => (kids f m).isEmpty).map
        fun m => bytes f.text (rng f m).start (rng f m).stop).flatten =
        bytes f.text (rng f n).start (rng f n).stop := by
  have hc := hf.nodes
  induction fuel generalizing n with
  | zero => have : n < f.nodes.length := hn; omega
  | succ fuel ih =>
    have hk : ∀ c ∈ kids f n, ∃ l, f.subtreeN fuel c = some l ∧
      ((l.filter fun m => (kids f m).isEmpty).map
        fun m => bytes f.text (rng f m).start (rng f m).stop).flatten =
        bytes f.text (rng f c).start (rng f c).stop := by
      intro c hck
      obtain ⟨h1, h2, _⟩ := kids_spec hc hn hck
      exact ih c h2 (by omega)
    obtain ⟨G, hG, hP⟩ := mapM_total hk
    refine ⟨((kids f n).map G).flatten ++ [n], by simp [File.subtreeN, children_kids hn, hG], ?_⟩
    by_cases he : kids f n = []
    · simp [he]
    · have he' : (kids f n).isEmpty = false := by
        cases h : kids f n with
        | nil => exact absurd h he
        | cons => rfl
      rw [← tiles_bytes f.text (rng f) (kids_tile hc hn he)]
      rw [List.filter_append, List.filter_cons_of_neg (by simp [he']), List.filter_nil,
        List.append_nil]
      have : ∀ cs : List Nat, (∀ c ∈ cs, c ∈ kids f n) →
          (((cs.map G).flatten.filter fun m => (kids f m).isEmpty).map
            fun m => bytes f.text (rng f m).start (rng f m).stop).flatten =
          (cs.map fun c => bytes f.text (rng f c).start (rng f c).stop).flatten := by
        intro cs
        induction cs with
        | nil => intro _; rfl
        | cons c cs ih2 =>
          intro hsub
          simp only [List.map_cons, List.flatten_cons, List.filter_append, List.map_append,
            List.flatten_append]
          rw [ih2 (fun d hd => hsub d (by simp [hd])), (hP c (hsub c (by simp))).2]
      exact this _ (fun _ h => h)

end

/-! ## Structural edits -/

/-- The text rendered so far, up to offset `pos` of the file. -/
def Pending (s : List α) (b : TextEditBuilder α) (pos : Nat) (out : List α) : Prop :=
  b.lastOffset ≤ pos ∧ ∃ o, Built s b o ∧ out = o ++ bytes s b.lastOffset pos

theorem pending_advance {s : List α} {b : TextEditBuilder α} {pos : Nat} {out : List α}
    (h : Pending s b pos out) (hp : pos ≤ s.length) :
    ∃ b', b.advanceTo pos = some b' ∧ b'.lastOffset = pos ∧ Built s b' out := by
  obtain ⟨h1, o, h2, rfl⟩ := h
  exact advanceTo_built h2 h1 hp

theorem pending_extend {s : List α} {b : TextEditBuilder α} {pos q : Nat} {out : List α}
    (h : Pending s b pos out) (hq : pos ≤ q) : Pending s b q (out ++ bytes s pos q) := by
  obtain ⟨h1, o, h2, rfl⟩ := h
  refine ⟨by omega, o, h2, ?_⟩
  rw [List.append_assoc, bytes_append_bytes s h1 hq]

theorem pending_built {s : List α} {b : TextEditBuilder α} {out : List α} (h : Built s b out) :
    Pending s b b.lastOffset out := ⟨Nat.le_refl _, out, h, by simp [bytes_self]⟩

theorem pending_request {s : List α} {b : TextEditBuilder α} {out : List α} (q : EditReq α)
    (h : Pending s b (request q).1.start out) (h1 : (request q).1.start ≤ (request q).1.stop)
    (h2 : (request q).1.stop ≤ s.length) :
    ∃ b', q.run b = some b' ∧ Pending s b' (request q).1.stop (out ++ (request q).2) := by
  obtain ⟨h3, o, h4, rfl⟩ := h
  obtain ⟨b', e1, e2, e3⟩ := run_built h4 q h3 h1 h2
  refine ⟨b', e1, ?_⟩
  rw [← e2]
  exact pending_built (by simpa using e3)

theorem lookup_find {xs : List (Nat × List α)} (n : Nat) :
    (xs.find? (fun r => r.1 == n)).map (·.2) = xs.lookup n := by
  induction xs with
  | nil => rfl
  | cons x xs ih =>
    obtain ⟨k, v⟩ := x
    simp only [List.find?_cons, List.lookup_cons]
    by_cases h : k = n
    · subst h; simp
    · have h1 : (k == n) = false := by simpa using h
      have h2 : (n == k) = false := by simpa using Ne.symm h
      simp [h1, h2, ih]

theorem textEditForNode_spec {f : File α} (hf : ConsistentFile f) (e : FileEdit α) (fuel n : Nat)
    (hn : IsNode f n) (hfu : f.nodes.length ≤ fuel + n) :
    ∃ out, Rendered f e n out ∧ ∀ b acc, Pending f.text b (rng f n).start acc →
      ∃ b', e.textEditForNode f fuel b n = some b' ∧
        Pending f.text b' (rng f n).stop (acc ++ out) := by
  have hc := hf.nodes
  induction fuel generalizing n with
  | zero => have : n < f.nodes.length := hn; omega
  | succ fuel ih =>
    have hv := rng_valid hc hn
    have hl := node_range_le hf hn
    by_cases hd : n ∈ e.deleted
    · refine ⟨[], .deleted hd, ?_⟩
      intro b acc hp
      obtain ⟨b', e1, e2⟩ := pending_request (.delete (rng f n)) hp hv hl
      refine ⟨b', ?_, e2⟩
      have : e.deleted.any (· == n) = true := by simpa using hd
      simp only [FileEdit.textEditForNode, data_dat hn, Option.bind_eq_bind, Option.bind_some, this,
        if_true]
      exact e1
    · have hd' : e.deleted.any (· == n) = false := by
        rw [← Bool.not_eq_true]; simpa using hd
      have hlk := lookup_find (xs := e.replaced) n
      cases hr : e.replaced.find? (fun r => r.1 == n) with
      | some r =>
        rw [hr] at hlk
        refine ⟨r.2, .replaced hd hlk.symm, ?_⟩
        intro b acc hp
        obtain ⟨b', e1, e2⟩ := pending_request (.replace (rng f n) r.2) hp hv hl
        refine ⟨b', ?_, e2⟩
        simp only [FileEdit.textEditForNode, data_dat hn, Option.bind_eq_bind, Option.bind_some, hd',
          hr, Bool.false_eq_true, if_false]
        exact e1
      | none =>
        rw [hr] at hlk
        have hkids : ∃ out, RenderedAll f e (kids f n) out ∧ ∀ b acc,
            Pending f.text b (rng f n).start acc → ∃ b',
              (kids f n).foldlM (e.textEditForNode f fuel) b = some b' ∧
              (kids f n ≠ [] → Pending f.text b' (rng f n).stop (acc ++ out)) ∧
              (kids f n = [] → b' = b) := by
          have key : ∀ cs : List Nat, (∀ c ∈ cs, c ∈ kids f n) → ∃ out, RenderedAll f e cs out ∧
              ∀ b acc x y, Tiles (cs.map (rng f)) x y → Pending f.text b x acc →
                ∃ b', cs.foldlM (e.textEditForNode f fuel) b = some b' ∧
                  Pending f.text b' y (acc ++ out) := by
            intro cs
            induction cs with
            | nil =>
              intro _
              refine ⟨[], .nil, ?_⟩
              intro b acc x y ht hp
              simp only [List.map_nil, Tiles] at ht
              subst ht
              exact ⟨b, rfl, by simpa using hp⟩
            | cons c cs ih2 =>
              intro hsub
              obtain ⟨h1, h2, _⟩ := kids_spec hc hn (hsub c (by simp))
              obtain ⟨o1, r1, p1⟩ := ih c h2 (by omega)
              obtain ⟨o2, r2, p2⟩ := ih2 (fun d hd => hsub d (by simp [hd]))
              refine ⟨o1 ++ o2, .cons r1 r2, ?_⟩
              intro b acc x y ht hp
              obtain ⟨t1, t2, t3⟩ := ht
              rw [← t1] at hp
              obtain ⟨b1, e1, q1⟩ := p1 b acc hp
              obtain ⟨b2, e2, q2⟩ := p2 b1 _ _ _ t3 q1
              exact ⟨b2, by simp [List.foldlM_cons, e1, e2], by rw [← List.append_assoc]; exact q2⟩
          obtain ⟨out, h1, h2⟩ := key (kids f n) (fun _ h => h)
          by_cases hk : kids f n = []
          · refine ⟨out, h1, ?_⟩
            intro b acc _
            exact ⟨b, by simp [hk], fun h => absurd hk h, fun _ => rfl⟩
          · refine ⟨out, h1, ?_⟩
            intro b acc hp
            obtain ⟨b', e1, e2⟩ := h2 b acc _ _ (kids_tile hc hn hk) hp
            exact ⟨b', e1, fun _ => e2, fun h => absurd h hk⟩
        obtain ⟨o, r1, p1⟩ := hkids
        have hins := lookup_find (xs := e.inserted) n
        -- the text of the node before the insertion
        have hbase : ∃ o', Rendered f e n (o' ++ insertedAfter e n) ∧
            ∀ b acc, Pending f.text b (rng f n).start acc → ∃ b',
              (kids f n).foldlM (e.textEditForNode f fuel) b = some b' ∧
              Pending f.text b' (rng f n).stop (acc ++ o') := by
          by_cases hk : kids f n = []
          · refine ⟨bytes f.text (rng f n).start (rng f n).stop, ?_, ?_⟩
            · exact .leaf hd hlk.symm (by rw [children_kids hn, hk]) (range_rng hn)
            · intro b acc hp
              obtain ⟨b', e1, _, e2⟩ := p1 b acc hp
              have := e2 hk
              subst this
              exact ⟨b', e1, pending_extend hp hv⟩
          · refine ⟨o, ?_, ?_⟩
            · exact .inner hd hlk.symm (children_kids hn) hk r1
            · intro b acc hp
              obtain ⟨b', e1, e2, _⟩ := p1 b acc hp
              exact ⟨b', e1, e2 hk⟩
        obtain ⟨o', hr', hb'⟩ := hbase
        refine ⟨_, hr', ?_⟩
        intro b acc hp
        obtain ⟨b1, e1, q1⟩ := hb' b acc hp
        simp only [FileEdit.textEditForNode, data_dat hn, Option.bind_eq_bind, Option.bind_some, hd',
          hr, Bool.false_eq_true, if_false]
        rw [show (dat f n).children = kids f n from rfl, e1]
        simp only [Option.bind_some]
        cases hi : e.inserted.find? (fun r => r.1 == n) with
        | none =>
          rw [hi] at hins
          refine ⟨b1, rfl, ?_⟩
          simpa [insertedAfter, ← hins] using q1
        | some r =>
          rw [hi] at hins
          obtain ⟨b2, e2, q2⟩ := pending_request (.insert (rng f n).stop r.2) q1 (Nat.le_refl _) hl
          refine ⟨b2, e2, ?_⟩
          simpa [insertedAfter, ← hins, request] using q2

theorem intoTextEdit_spec {f : File α} (hf : ConsistentFile f) (e : FileEdit α) :
    ∃ edit out, e.intoTextEdit f = some edit ∧ Rendered f e 0 out ∧
      edit.apply (Text.ofBuf f.text) = some out := by
  have hroot := root_isNode hf.nodes
  obtain ⟨out, h1, h2⟩ := textEditForNode_spec hf e f.nodes.length 0 hroot (by omega)
  have hp : Pending f.text (TextEditBuilder.new (Text.ofBuf f.text)) (rng f 0).start [] := by
    rw [root_rng hf]
    refine ⟨Nat.le_refl _, [], ⟨?_, rfl⟩, by simp [TextEditBuilder.new, bytes_self]⟩
    simp [TextEditBuilder.new, Text.len, Text.ofBuf]
  obtain ⟨b, e1, q1⟩ := h2 _ _ hp
  rw [root_rng hf] at q1
  obtain ⟨b', e2, q2, q3⟩ := pending_advance q1 (Nat.le_refl _)
  have hlen : b.textLen = f.text.length := by
    obtain ⟨_, o, h, _⟩ := q1; exact h.1
  refine ⟨⟨b'.segments ++ [.copy ⟨f.text.length, f.text.length⟩]⟩, out, ?_, h1, ?_⟩
  · simp only [FileEdit.intoTextEdit, File.root, e1, Option.bind_eq_bind, Option.bind_some,
      TextEditBuilder.build, hlen, e2, Option.map_some, TextRange.fromLen, TextRange.fromTo]
    simp
  · rw [apply_eq (Text.ofBuf_wf _) (Text.asStr_ofBuf _)]
    simp only [applyOps_append, q3.2]
    simp [applyOps, opBytes, bytes_self]

/-! ## Untouched parts -/

theorem RenderedAll_append {f : File α} {e : FileEdit α} {xs ys : List Nat} {out : List α}
    (h : RenderedAll f e (xs ++ ys) out) :
    ∃ o1 o2, RenderedAll f e xs o1 ∧ RenderedAll f e ys o2 ∧ out = o1 ++ o2 := by
  induction xs generalizing out with
  | nil => exact ⟨[], out, .nil, h, rfl⟩
  | cons x xs ih =>
    cases h with
    | @cons _ _ s t h1 h2 =>
      obtain ⟨o1, o2, h3, h4, rfl⟩ := ih h2
      exact ⟨s ++ o1, o2, .cons h1 h3, h4, by simp⟩

theorem lookup_mem {xs : List (Nat × List α)} {n : Nat} {s : List α} (h : xs.lookup n = some s) :
    (n, s) ∈ xs := by
  induction xs with
  | nil => simp at h
  | cons x xs ih =>
    obtain ⟨k, v⟩ := x
    rw [List.lookup_cons] at h
    by_cases hk : n = k
    · subst hk; simp at h; subst h; simp
    · have : (n == k) = false := by simpa using hk
      rw [this] at h
      simp only [Bool.false_eq_true, if_false] at h
      exact List.mem_cons_of_mem _ (ih h)

theorem not_named_inserted {e : FileEdit α} {n : Nat} (h : ¬ Named e n) : insertedAfter e n = [] := by
  unfold insertedAfter
  cases hl : e.inserted.lookup n with
  | none => rfl
  | some s => exact absurd (.inr (.inr ⟨s, lookup_mem hl⟩)) h

theorem not_named_replaced {e : FileEdit α} {n : Nat} {s : List α} (h : ¬ Named e n) :
    e.replaced.lookup n ≠ some s := by
  intro hl
  exact h (.inr (.inl ⟨s, lookup_mem hl⟩))

/-- A node with no request in its subtree keeps its text. -/
theorem rendered_unnamed {f : File α} (hf : ConsistentFile f) {e : FileEdit α} (k n : Nat)
    (hn : IsNode f n) (hk : f.nodes.length ≤ k + n) (hu : ∀ m, Desc f n m → ¬ Named e m)
    {out : List α} (h : Rendered f e n out) :
    out = bytes f.text (rng f n).start (rng f n).stop := by
  have hc := hf.nodes
  induction k generalizing n out with
  | zero => have : n < f.nodes.length := hn; omega
  | succ k ih =>
    have hnn := hu n (.refl _)
    cases h with
    | deleted h1 => exact absurd (.inl h1) hnn
    | replaced _ h1 => exact absurd h1 (not_named_replaced hnn)
    | leaf _ _ _ h1 =>
      rw [range_rng hn] at h1
      cases h1
      simp [not_named_inserted hnn]
    | @inner _ cs o _ _ h1 h2 h3 =>
      rw [children_kids hn] at h1
      cases h1
      rw [not_named_inserted hnn, List.append_nil]
      have key : ∀ cs : List Nat, (∀ c ∈ cs, c ∈ kids f n) → ∀ o, RenderedAll f e cs o →
          o = (cs.map fun c => bytes f.text (rng f c).start (rng f c).stop).flatten := by
        intro cs
        induction cs with
        | nil => intro _ o h; cases h; rfl
        | cons c cs ih2 =>
          intro hsub o h
          cases h with
          | cons h4 h5 =>
            have hck := hsub c (by simp)
            obtain ⟨g1, g2, _⟩ := kids_spec hc hn hck
            rw [ih c g2 (by omega) (fun m hm => hu m (.step (child_iff.2 ⟨hn, hck⟩) hm)) h4,
              ih2 (fun d hd => hsub d (by simp [hd])) _ h5]
            rfl
      rw [key _ (fun _ h => h) o h3, tiles_bytes f.text (rng f) (kids_tile hc hn h2)]

/-- Consecutive siblings with no request in their subtrees keep their text. -/
theorem renderedAll_unnamed {f : File α} (hf : ConsistentFile f) {e : FileEdit α} {cs : List Nat}
    (hn : ∀ c ∈ cs, IsNode f c) (hu : ∀ c ∈ cs, ∀ m, Desc f c m → ¬ Named e m)
    {out : List α} (h : RenderedAll f e cs out) :
    out = (cs.map fun c => bytes f.text (rng f c).start (rng f c).stop).flatten := by
  induction cs generalizing out with
  | nil => cases h; rfl
  | cons c cs ih =>
    cases h with
    | cons h1 h2 =>
      rw [rendered_unnamed hf f.nodes.length c (hn c (by simp)) (by omega) (hu c (by simp)) h1,
        ih (fun d hd => hn d (by simp [hd])) (fun d hd => hu d (by simp [hd])) h2]
      rfl

/-- If all requests are inside of the subtree of `n`, then only the text of `n` changes. -/
theorem rendered_local {f : File α} (hf : ConsistentFile f) {e : FileEdit α} {a n : Nat}
    (h : Desc f a n) (ha : IsNode f a) (hu : ∀ m, Named e m → Desc f n m) {out : List α}
    (hr : Rendered f e a out) :
    ∃ o, Rendered f e n o ∧ out = bytes f.text (rng f a).start (rng f n).start ++ o ++
      bytes f.text (rng f n).stop (rng f a).stop := by
  have hc := hf.nodes
  induction h generalizing out with
  | refl a => exact ⟨out, hr, by simp [bytes_self]⟩
  | @step a c n h1 h2 ih =>
    have hlt := (child_spec hc h1).1
    have hcn := (child_spec hc h1).2.2.1
    have hle := desc_le hc h2
    have hk := (child_iff.1 h1).2
    have hnn : ¬ Named e a := by
      intro h
      have := desc_le hc (hu a h)
      omega
    cases hr with
    | deleted h1 => exact absurd (.inl h1) hnn
    | replaced _ h1 => exact absurd h1 (not_named_replaced hnn)
    | leaf _ _ h3 _ =>
      rw [children_kids ha] at h3
      simp only [Option.some.injEq] at h3
      rw [h3] at hk
      simp at hk
    | @inner _ cs o _ _ h3 h4 h5 =>
      rw [children_kids ha] at h3
      cases h3
      obtain ⟨pre, post, hpp⟩ := List.append_of_mem hk
      have ht := kids_tile hc ha h4
      have hnd := kids_nodup hc ha
      rw [hpp] at h5
      obtain ⟨o1, o2, r1, r2, rfl⟩ := RenderedAll_append h5
      cases r2 with
      | @cons _ _ o3 o4 r3 r4 =>
        have hother : ∀ d ∈ kids f a, d ≠ c → ∀ m, Desc f d m → ¬ Named e m := by
          intro d hd hne m hm hnm
          exact siblings_disjoint hc (child_iff.2 ⟨ha, hd⟩) h1 hne hm (h2.trans (hu m hnm))
        have hne1 : ∀ d ∈ pre, d ≠ c := by
          rw [hpp, List.nodup_append] at hnd
          intro d hd
          exact hnd.2.2 d hd c (by simp)
        have hne2 : ∀ d ∈ post, d ≠ c := by
          rw [hpp, List.nodup_append] at hnd
          have := hnd.2.1
          rw [List.nodup_cons] at this
          intro d hd he
          exact this.1 (he ▸ hd)
        have m1 : ∀ d ∈ pre, d ∈ kids f a := by intro d hd; rw [hpp]; simp [hd]
        have m2 : ∀ d ∈ post, d ∈ kids f a := by intro d hd; rw [hpp]; simp [hd]
        rw [hpp, List.map_append, tiles_append] at ht
        obtain ⟨x, t1, t2, t3, t4⟩ := ht
        have e1 := renderedAll_unnamed hf (fun d hd => (kids_spec hc ha (m1 d hd)).2.1)
          (fun d hd => hother d (m1 d hd) (hne1 d hd)) r1
        have e2 := renderedAll_unnamed hf (fun d hd => (kids_spec hc ha (m2 d hd)).2.1)
          (fun d hd => hother d (m2 d hd) (hne2 d hd)) r4
        rw [tiles_bytes f.text (rng f) t1] at e1
        rw [tiles_bytes f.text (rng f) t4] at e2
        obtain ⟨o5, r5, e5⟩ := ih hcn hu r3
        refine ⟨o5, r5, ?_⟩
        have hdr := desc_range hc h2
        have hle1 := tiles_le t1
        have hle2 := tiles_le t4
        rw [not_named_inserted hnn, List.append_nil, e1, e2, e5, ← t2]
        rw [← bytes_append_bytes f.text (a := (rng f a).start) (b := (rng f c).start)
          (c := (rng f n).start) (by omega) (by omega)]
        rw [← bytes_append_bytes f.text (a := (rng f n).stop) (b := (rng f c).stop)
          (c := (rng f a).stop) (by omega) (by omega)]
        simp [List.append_assoc]

end Fall
