import Verif.Spec.Dump
import Verif.Lemmas.Analysis
import Verif.Props.Tree

/-! Lemmas about the texts of trees: a text is a list of rows, and the rows determine the trees. -/

namespace Fall
open Spec

/-! ## The trees of a file -/

section
variable {f : File UInt8} (hf : ConsistentFile f)
include hf

theorem child_later {n c : Nat} {cs : List Nat} (hcs : f.children n = some cs) (hc : c ∈ cs) : n < c := by
  simp only [File.children, File.data, Option.map_eq_some_iff] at hcs
  obtain ⟨d, h1, rfl⟩ := hcs
  exact (hf.nodes.child n d c h1 hc).1

theorem treesAt_exists (k : Nat) : ∀ ns : List Nat, (∀ n ∈ ns, IsNode f n ∧ f.nodes.length ≤ k + n) →
    ∃ T, TreesAt f ns T := by
  induction k with
  | zero =>
    intro ns h
    cases ns with
    | nil => exact ⟨_, .nil⟩
    | cons n ns =>
      obtain ⟨h1, h2⟩ := h n List.mem_cons_self
      exact absurd h1 (Nat.not_lt.2 (by simpa using h2))
  | succ k ih =>
    intro ns h
    induction ns with
    | nil => exact ⟨_, .nil⟩
    | cons n ns ih2 =>
      obtain ⟨T, hT⟩ := ih2 fun m hm => h m (List.mem_cons_of_mem _ hm)
      obtain ⟨hn, hlen⟩ := h n List.mem_cons_self
      have hcs := children_kids (f := f) hn
      by_cases he : kids f n = []
      · obtain ⟨s, hs⟩ := textOf_some hf hn
        exact ⟨_, .leaf (ty_dat hn) (he ▸ hcs) hs hT⟩
      · obtain ⟨K, hK⟩ := ih (kids f n) fun c hc => ⟨kids_isNode hf hn c hc, by
          have := child_later hf hcs hc
          omega⟩
        exact ⟨_, .inner (ty_dat hn) hcs he hK hT⟩

theorem treeAt_exists : ∃ T, TreesAt f [f.root] T :=
  treesAt_exists hf f.nodes.length [f.root] fun n hn => by
    rw [List.mem_singleton] at hn
    subst hn
    exact ⟨root_isNode hf.nodes, by omega⟩

theorem treesAt_text {ns : List Nat} {T : Trees} (h : TreesAt f ns T) :
    ∃ ts, ns.mapM f.textOf = some ts ∧ T.text = ts.flatten := by
  induction h with
  | nil => exact ⟨[], rfl, rfl⟩
  | leaf _ _ hs _ ih =>
    obtain ⟨ts, h1, h2⟩ := ih
    refine ⟨_ :: ts, by rw [List.mapM_cons, hs, h1]; rfl, by simp [Trees.text, h2]⟩
  | inner _ hcs hne _ _ ih1 ih2 =>
    obtain ⟨ts, h1, h2⟩ := ih1
    obtain ⟨us, h3, h4⟩ := ih2
    obtain ⟨ts', g1, g2⟩ := (C16_leaves_spell_text f hf).1 _ _ hcs hne
    rw [h1, Option.some.injEq] at g1
    subst g1
    refine ⟨_ :: us, by rw [List.mapM_cons, g2, h3]; rfl, by simp [Trees.text, h2, h4]⟩

theorem treeAt_text {T : Trees} (h : TreesAt f [f.root] T) : T.text = f.text := by
  obtain ⟨ts, h1, h2⟩ := treesAt_text hf h
  have := (C16_leaves_spell_text f hf).2.2
  simp only [List.mapM_cons, File.root, this, List.mapM_nil] at h1
  simp at h1
  rw [h2, ← h1]
  simp

end

theorem treesAt_unique {f : File UInt8} {ns : List Nat} {T U : Trees} (h : TreesAt f ns T) (h' : TreesAt f ns U) :
    T = U := by
  induction h generalizing U with
  | nil => cases h'; rfl
  | leaf h1 h2 h3 _ ih =>
    cases h' with
    | leaf g1 g2 g3 g4 =>
      rw [h1, Option.some.injEq] at g1
      rw [h3, Option.some.injEq] at g3
      rw [g1, g3, ih g4]
    | inner g1 g2 g3 =>
      rw [h2, Option.some.injEq] at g2
      exact absurd g2.symm g3
  | inner h1 h2 h3 _ _ ih1 ih2 =>
    cases h' with
    | leaf g1 g2 g3 g4 =>
      rw [h2, Option.some.injEq] at g2
      exact absurd g2 h3
    | inner g1 g2 g3 g4 g5 =>
      rw [h1, Option.some.injEq] at g1
      rw [h2, Option.some.injEq] at g2
      subst g2
      rw [g1, ih1 g4, ih2 g5]

/-! ## Rows -/

/-- The rows of trees: depth, type and text of a node without children. -/
def Spec.Trees.rows (d : Nat) : Trees → List (Nat × NodeType × Option (List UInt8))
  | .nil => []
  | .leaf ty s rest => (d, ty, some s) :: rest.rows d
  | .inner ty kids rest => (d, ty, none) :: (kids.rows (d + 1) ++ rest.rows d)

theorem rows_depth (T : Trees) : ∀ d, ∀ r ∈ T.rows d, d ≤ r.1 := by
  induction T with
  | nil => intro d r h; cases h
  | leaf ty s rest ih =>
    intro d r h
    rcases List.mem_cons.1 h with rfl | h
    · exact Nat.le_refl _
    · exact ih d r h
  | inner ty kids rest ih1 ih2 =>
    intro d r h
    rcases List.mem_cons.1 h with rfl | h
    · exact Nat.le_refl _
    · rcases List.mem_append.1 h with h | h
      · exact Nat.le_of_succ_le (ih1 _ r h)
      · exact ih2 d r h

theorem rows_head (T : Trees) (d : Nat) (r : Nat × NodeType × Option (List UInt8))
    (rs : List (Nat × NodeType × Option (List UInt8))) (h : T.rows d = r :: rs) : r.1 = d := by
  cases T with
  | nil => cases h
  | leaf => cases h; rfl
  | inner => cases h; rfl

/-- Rows that are deeper are separated from those that are not. -/
theorem rows_append {d : Nat} {K K' R R' : Trees}
    (h : K.rows (d + 1) ++ R.rows d = K'.rows (d + 1) ++ R'.rows d) :
    K.rows (d + 1) = K'.rows (d + 1) ∧ R.rows d = R'.rows d := by
  have key : ∀ K R : Trees, ((K.rows (d + 1) ++ R.rows d).takeWhile fun r => decide (d + 1 ≤ r.1)) = K.rows (d + 1) := by
    intro K R
    rw [List.takeWhile_append_of_pos fun r hr => by simpa using rows_depth K (d + 1) r hr]
    cases hR : R.rows d with
    | nil => simp
    | cons r rs =>
      have := rows_head R d r rs hR
      have hr : ¬ d + 1 ≤ r.1 := by omega
      simp [hr]
  have h1 := key K R
  rw [h, key K' R'] at h1
  rw [h1] at h
  exact ⟨h1.symm, List.append_cancel_left h⟩

theorem rows_injective (T : Trees) : ∀ d U, T.rows d = U.rows d → T = U := by
  induction T with
  | nil =>
    intro d U h
    cases U with
    | nil => rfl
    | leaf | inner => cases h
  | leaf ty s rest ih =>
    intro d U h
    cases U with
    | nil => cases h
    | leaf ty' s' rest' =>
      simp only [Trees.rows, List.cons.injEq, Prod.mk.injEq, true_and, Option.some.injEq] at h
      rw [h.1.1, h.1.2, ih d rest' h.2]
    | inner => simp [Trees.rows] at h
  | inner ty kids rest ih1 ih2 =>
    intro d U h
    cases U with
    | nil => cases h
    | leaf => simp [Trees.rows] at h
    | inner ty' kids' rest' =>
      simp only [Trees.rows, List.cons.injEq, Prod.mk.injEq, true_and, and_true] at h
      obtain ⟨h1, h2⟩ := rows_append h.2
      rw [h.1, ih1 _ _ h1, ih2 _ _ h2]

/-! ## The text of rows -/

section
variable {info : NodeType → Option TypeInfo} {debug : List UInt8 → List UInt8}

/-- What is written after the name. -/
def rowEnd (debug : List UInt8 → List UInt8) : Option (List UInt8) → List UInt8
  | some s => 32 :: debug s
  | none => []

/-- The name of a type. -/
def nameOf (info : NodeType → Option TypeInfo) (t : NodeType) : List UInt8 :=
  match info t with
  | some i => i.name
  | none => []

/-- The text of a row. -/
def rowText (info : NodeType → Option TypeInfo) (debug : List UInt8 → List UInt8)
    (r : Nat × NodeType × Option (List UInt8)) : List UInt8 :=
  (List.replicate r.1 [32, 32]).flatten ++ (nameOf info r.2.1 ++ rowEnd debug r.2.2)

/-- The text of rows. -/
def rowsText (info : NodeType → Option TypeInfo) (debug : List UInt8 → List UInt8)
    (rs : List (Nat × NodeType × Option (List UInt8))) : List UInt8 :=
  rs.flatMap fun r => rowText info debug r ++ [10]

theorem nameOf_visible (hn : Names info) {t : NodeType} (h : ∃ i, info t = some i) :
    nameOf info t ≠ [] ∧ ∀ b ∈ nameOf info t, ¬ SpaceByte b := by
  obtain ⟨i, hi⟩ := h
  simpa [nameOf, hi] using hn.visible t i hi

theorem nameOf_injective (hn : Names info) {t t' : NodeType} (h : ∃ i, info t = some i) (h' : ∃ i, info t' = some i)
    (e : nameOf info t = nameOf info t') : t = t' := by
  obtain ⟨i, hi⟩ := h
  obtain ⟨i', hi'⟩ := h'
  simp only [nameOf, hi, hi'] at e
  exact hn.different t t' i i' hi hi' e

theorem indent_injective {xs ys : List UInt8} (hx : xs.head? ≠ some 32) (hy : ys.head? ≠ some 32) : ∀ (a b : Nat),
    (List.replicate a ([32, 32] : List UInt8)).flatten ++ xs = (List.replicate b [32, 32]).flatten ++ ys → a = b ∧ xs = ys := by
  intro a
  induction a with
  | zero =>
    intro b h
    cases b with
    | zero => exact ⟨rfl, by simpa using h⟩
    | succ b =>
      simp only [List.replicate_succ, List.replicate_zero, List.flatten_nil, List.flatten_cons, List.nil_append,
        List.cons_append] at h
      rw [h] at hx
      simp at hx
  | succ a ih =>
    intro b h
    cases b with
    | zero =>
      simp only [List.replicate_succ, List.replicate_zero, List.flatten_nil, List.flatten_cons, List.nil_append,
        List.cons_append] at h
      rw [← h] at hy
      simp at hy
    | succ b =>
      simp only [List.replicate_succ, List.flatten_cons, List.cons_append, List.nil_append, List.cons.injEq,
        true_and] at h
      obtain ⟨h1, h2⟩ := ih b h
      exact ⟨by omega, h2⟩

theorem name_end (hq : Quotes debug) {xs ys : List UInt8} (hx : 32 ∉ xs) (hy : 32 ∉ ys) {o o' : Option (List UInt8)}
    (h : xs ++ rowEnd debug o = ys ++ rowEnd debug o') : xs = ys ∧ o = o' := by
  have key : ∀ (zs : List UInt8) (o : Option (List UInt8)), 32 ∉ zs →
      (zs ++ rowEnd debug o).takeWhile (· != 32) = zs := by
    intro zs o hz
    rw [List.takeWhile_append_of_pos fun b hb => by
      simp only [bne_iff_ne, ne_eq]
      rintro rfl
      exact hz hb]
    cases o <;> simp [rowEnd]
  have h1 := key xs o hx
  rw [h, key ys o' hy] at h1
  subst h1
  refine ⟨rfl, ?_⟩
  have := List.append_cancel_left h
  cases o with
  | none => cases o' with
    | none => rfl
    | some s => cases this
  | some s => cases o' with
    | none => cases this
    | some s' =>
      simp only [rowEnd, List.cons.injEq, true_and] at this
      rw [hq.different s s' this]

theorem rowText_injective (hn : Names info) (hq : Quotes debug) {r r' : Nat × NodeType × Option (List UInt8)}
    (hr : ∃ i, info r.2.1 = some i) (hr' : ∃ i, info r'.2.1 = some i)
    (h : rowText info debug r = rowText info debug r') : r = r' := by
  have hv := nameOf_visible hn hr
  have hv' := nameOf_visible hn hr'
  have head : ∀ {t : NodeType} (o : Option (List UInt8)), (nameOf info t ≠ [] ∧ ∀ b ∈ nameOf info t, ¬ SpaceByte b) →
      (nameOf info t ++ rowEnd debug o).head? ≠ some 32 := by
    intro t o hv
    cases hx : nameOf info t with
    | nil => exact absurd hx hv.1
    | cons b bs =>
      simp only [List.cons_append, List.head?_cons, ne_eq, Option.some.injEq]
      rintro rfl
      exact hv.2 32 (by simp [hx]) (by simp [SpaceByte])
  obtain ⟨h1, h2⟩ := indent_injective (head _ hv) (head _ hv') _ _ h
  obtain ⟨h3, h4⟩ := name_end hq (fun hb => hv.2 _ hb (by simp [SpaceByte])) (fun hb => hv'.2 _ hb (by simp [SpaceByte])) h2
  exact Prod.ext h1 (Prod.ext (nameOf_injective hn hr hr' h3) h4)

theorem rowText_line (hn : Names info) (hq : Quotes debug) {r : Nat × NodeType × Option (List UInt8)}
    (hr : ∃ i, info r.2.1 = some i) : 10 ∉ rowText info debug r := by
  have hv := nameOf_visible hn hr
  intro h
  simp only [rowText, List.mem_append, List.mem_flatten, List.mem_replicate] at h
  rcases h with ⟨l, ⟨-, rfl⟩, h⟩ | h | h
  · simp at h
  · exact hv.2 _ h (by simp [SpaceByte])
  · cases ho : r.2.2 with
    | none => rw [ho] at h; cases h
    | some s =>
      rw [ho] at h
      simp only [rowEnd, List.mem_cons] at h
      rcases h with h | h
      · cases h
      · exact hq.line s h

theorem line_append {xs ys rest rest' : List UInt8} (hx : 10 ∉ xs) (hy : 10 ∉ ys)
    (h : xs ++ 10 :: rest = ys ++ 10 :: rest') : xs = ys ∧ rest = rest' := by
  induction xs generalizing ys with
  | nil =>
    cases ys with
    | nil => simpa using h
    | cons b ys =>
      simp only [List.nil_append, List.cons_append, List.cons.injEq] at h
      exact absurd (h.1 ▸ List.mem_cons_self) hy
  | cons a xs ih =>
    cases ys with
    | nil =>
      simp only [List.nil_append, List.cons_append, List.cons.injEq] at h
      exact absurd (h.1 ▸ List.mem_cons_self) hx
    | cons b ys =>
      simp only [List.cons_append, List.cons.injEq] at h
      obtain ⟨h1, h2⟩ := ih (fun h => hx (List.mem_cons_of_mem _ h)) (fun h => hy (List.mem_cons_of_mem _ h)) h.2
      exact ⟨by rw [h.1, h1], h2⟩

theorem rowsText_injective (hn : Names info) (hq : Quotes debug) :
    ∀ rs rs' : List (Nat × NodeType × Option (List UInt8)), (∀ r ∈ rs, ∃ i, info r.2.1 = some i) →
      (∀ r ∈ rs', ∃ i, info r.2.1 = some i) → rowsText info debug rs = rowsText info debug rs' → rs = rs' := by
  intro rs
  induction rs with
  | nil =>
    intro rs' _ _ h
    cases rs' with
    | nil => rfl
    | cons r rs' => simp [rowsText] at h
  | cons r rs ih =>
    intro rs' h1 h2 h
    cases rs' with
    | nil => simp [rowsText] at h
    | cons r' rs' =>
      simp only [rowsText, List.flatMap_cons, List.append_assoc, List.cons_append, List.nil_append] at h
      have k1 := h1 r List.mem_cons_self
      have k2 := h2 r' List.mem_cons_self
      obtain ⟨e1, e2⟩ := line_append (rowText_line hn hq k1) (rowText_line hn hq k2) h
      rw [rowText_injective hn hq k1 k2 e1, ih rs' (fun r hr => h1 r (List.mem_cons_of_mem _ hr))
        (fun r hr => h2 r (List.mem_cons_of_mem _ hr)) e2]

/-- The trees that are written. -/
def Spec.Trees.shown (info : NodeType → Option TypeInfo) (ws : Bool) (T : Trees) : Trees :=
  if ws then T else T.without (likeSpace info)

theorem Spec.Trees.without_types (isWs : NodeType → Bool) (P : NodeType → Prop) (T : Trees) (d : Nat)
    (h : ∀ r ∈ T.rows d, P r.2.1) : ∀ r ∈ (T.without isWs).rows d, P r.2.1 := by
  induction T generalizing d with
  | nil => exact h
  | leaf ty s rest ih =>
    have hrest := ih d fun r hr => h r (List.mem_cons_of_mem _ hr)
    rw [Trees.without]
    split
    · exact hrest
    · intro r hr
      rcases List.mem_cons.1 hr with rfl | hr
      · exact h _ List.mem_cons_self
      · exact hrest r hr
  | inner ty kids rest ih1 ih2 =>
    have hkids := ih1 (d + 1) fun r hr => h r (List.mem_cons_of_mem _ (List.mem_append_left _ hr))
    have hrest := ih2 d fun r hr => h r (List.mem_cons_of_mem _ (List.mem_append_right _ hr))
    rw [Trees.without]
    split
    · exact hrest
    · intro r hr
      rcases List.mem_cons.1 hr with rfl | hr
      · exact h (d, ty, none) List.mem_cons_self
      · rcases List.mem_append.1 hr with hr | hr
        · exact hkids r hr
        · exact hrest r hr

theorem treesAt_types {f : File UInt8} (hk : KnownTypes info f) {ns : List Nat} {T : Trees} (h : TreesAt f ns T) :
    ∀ d, ∀ r ∈ T.rows d, ∃ i, info r.2.1 = some i := by
  induction h with
  | nil => intro d r h; cases h
  | leaf h1 _ _ _ ih =>
    intro d r hr
    rcases List.mem_cons.1 hr with rfl | hr
    · exact hk _ _ h1
    · exact ih d r hr
  | inner h1 _ _ _ _ ih1 ih2 =>
    intro d r hr
    rcases List.mem_cons.1 hr with rfl | hr
    · exact hk _ _ h1
    · rcases List.mem_append.1 hr with hr | hr
      · exact ih1 _ r hr
      · exact ih2 _ r hr

theorem shown_types {f : File UInt8} (hk : KnownTypes info f) {ns : List Nat} {T : Trees} (h : TreesAt f ns T) (ws : Bool)
    (d : Nat) : ∀ r ∈ (T.shown info ws).rows d, ∃ i, info r.2.1 = some i := by
  cases ws with
  | true => exact treesAt_types hk h d
  | false => exact T.without_types _ (fun t => ∃ i, info t = some i) d (treesAt_types hk h d)

theorem dumpNode_eq {f : File UInt8} (hf : ConsistentFile f) (hk : KnownTypes info f) (ws : Bool) {ns : List Nat} {T : Trees}
    (h : TreesAt f ns T) : ∀ fuel level, (∀ n ∈ ns, IsNode f n ∧ f.nodes.length ≤ fuel + n) →
      ∃ ts, ns.mapM (dumpNode info debug f ws fuel level) = some ts ∧
        ts.flatten = rowsText info debug ((T.shown info ws).rows level) := by
  have hlike : ∀ {t : NodeType} {i : TypeInfo}, info t = some i → likeSpace info t = i.whitespaceLike := by
    intro t i hi
    simp [likeSpace, hi]
  induction h with
  | nil => exact fun _ _ _ => ⟨[], rfl, by cases ws <;> rfl⟩
  | @leaf n ty s ns T h1 h2 h3 h4 ih =>
    intro fuel level hfuel
    obtain ⟨ts, g1, g2⟩ := ih fuel level fun m hm => hfuel m (List.mem_cons_of_mem _ hm)
    obtain ⟨hn, hlen⟩ := hfuel n List.mem_cons_self
    obtain ⟨i, hi⟩ := hk n ty h1
    cases fuel with
    | zero => exact absurd hn (Nat.not_lt.2 (by simpa using hlen))
    | succ fuel =>
      by_cases hw : (i.whitespaceLike && !ws) = true
      · have e0 : dumpNode info debug f ws (fuel + 1) level n = some [] := by
          simp only [dumpNode, h1, hi, hw, Option.bind_eq_bind, Option.bind_some, if_true]
          rfl
        refine ⟨[] :: ts, by rw [List.mapM_cons, e0, g1]; rfl, ?_⟩
        simp only [Bool.and_eq_true, Bool.not_eq_true'] at hw
        simp only [List.flatten_cons, List.nil_append, g2, hw.2, Trees.shown, Bool.false_eq_true, if_false, Trees.without,
          hlike hi, hw.1, if_true]
      · refine ⟨((List.replicate level [32, 32]).flatten ++ i.name ++ [32] ++ debug s ++ [10]) :: ts, ?_, ?_⟩
        · have e0 : dumpNode info debug f ws (fuel + 1) level n = some
              ((List.replicate level [32, 32]).flatten ++ i.name ++ [32] ++ debug s ++ [10]) := by
            simp only [dumpNode, h1, hi, hw, h2, h3, Option.bind_eq_bind, Option.bind_some, List.isEmpty_nil, if_true]
            rfl
          rw [List.mapM_cons, e0, g1]
          rfl
        · have e : (Trees.leaf ty s T).shown info ws = .leaf ty s (T.shown info ws) := by
            cases ws with
            | true => rfl
            | false =>
              simp only [Bool.not_false, Bool.and_true, Bool.not_eq_true] at hw
              simp [Trees.shown, Trees.without, hlike hi, hw]
          rw [e]
          simp [g2, Trees.rows, rowsText, rowText, rowEnd, nameOf, hi]
  | @inner n ty cs K ns T h1 h2 h3 h4 h5 ih1 ih2 =>
    intro fuel level hfuel
    obtain ⟨ts, g1, g2⟩ := ih2 fuel level fun m hm => hfuel m (List.mem_cons_of_mem _ hm)
    obtain ⟨hn, hlen⟩ := hfuel n List.mem_cons_self
    obtain ⟨i, hi⟩ := hk n ty h1
    cases fuel with
    | zero => exact absurd hn (Nat.not_lt.2 (by simpa using hlen))
    | succ fuel =>
      by_cases hw : (i.whitespaceLike && !ws) = true
      · have e0 : dumpNode info debug f ws (fuel + 1) level n = some [] := by
          simp only [dumpNode, h1, hi, hw, Option.bind_eq_bind, Option.bind_some, if_true]
          rfl
        refine ⟨[] :: ts, by rw [List.mapM_cons, e0, g1]; rfl, ?_⟩
        simp only [Bool.and_eq_true, Bool.not_eq_true'] at hw
        simp only [List.flatten_cons, List.nil_append, g2, hw.2, Trees.shown, Bool.false_eq_true, if_false, Trees.without,
          hlike hi, hw.1, if_true]
      · obtain ⟨us, k1, k2⟩ := ih1 fuel (level + 1) fun c hc => ⟨child_isNode hf ⟨cs, h2, hc⟩, by
          have := child_later hf h2 hc
          omega⟩
        refine ⟨((List.replicate level [32, 32]).flatten ++ i.name ++ [10] ++ us.flatten) :: ts, ?_, ?_⟩
        · have e0 : dumpNode info debug f ws (fuel + 1) level n = some
              ((List.replicate level [32, 32]).flatten ++ i.name ++ [10] ++ us.flatten) := by
            have he : cs.isEmpty = false := by simpa using h3
            simp only [dumpNode, h1, hi, hw, h2, he, k1, Option.bind_eq_bind, Option.bind_some]
            rfl
          rw [List.mapM_cons, e0, g1]
          rfl
        · have e : (Trees.inner ty K T).shown info ws = .inner ty (K.shown info ws) (T.shown info ws) := by
            cases ws with
            | true => rfl
            | false =>
              simp only [Bool.not_false, Bool.and_true, Bool.not_eq_true] at hw
              simp [Trees.shown, Trees.without, hlike hi, hw]
          rw [e]
          simp [g2, k2, Trees.rows, rowsText, rowText, rowEnd, nameOf, hi]

theorem dump_eq {f : File UInt8} (hf : ConsistentFile f) (hk : KnownTypes info f) (ws : Bool) {T : Trees}
    (h : TreesAt f [f.root] T) : dump info debug f ws = some (rowsText info debug ((T.shown info ws).rows 0)) := by
  obtain ⟨ts, h1, h2⟩ := dumpNode_eq (debug := debug) hf hk ws h f.nodes.length 0 fun n hn => by
    rw [List.mem_singleton] at hn
    subst hn
    exact ⟨root_isNode hf.nodes, by omega⟩
  simp only [List.mapM_cons, List.mapM_nil, Option.pure_def, Option.bind_eq_bind, Option.bind_some] at h1
  obtain ⟨t, g1, g2⟩ := Option.bind_eq_some_iff.1 h1
  cases g2
  rw [dump, g1, ← h2]
  simp

end

end Fall
