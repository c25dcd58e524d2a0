import Verif.Spec.Tree
import Verif.Lemmas.Text

/-! The tree builder produces the table of a forest. -/

namespace Fall
open Spec

/-- Forests in first-child/next-sibling form. -/
inductive Forest where
  | nil
  | leaf (ty : NodeType) (len : Nat) (rest : Forest)
  | node (ty : NodeType) (kids rest : Forest)
deriving DecidableEq, Repr

namespace Forest

/-- The builder calls for a forest. -/
def ops : Forest → List BuilderOp
  | nil => []
  | leaf ty len rest => .leaf ty len :: rest.ops
  | node ty kids rest => .start ty :: (kids.ops ++ .finish :: rest.ops)

def len : Forest → Nat
  | nil => 0
  | leaf _ len rest => len + rest.len
  | node _ kids rest => kids.len + rest.len

def size : Forest → Nat
  | nil => 0
  | leaf _ _ rest => 1 + rest.size
  | node _ kids rest => 1 + kids.size + rest.size

/-- Ids of the roots of a forest stored from `id` on. -/
def rootIds (id : Nat) : Forest → List Nat
  | nil => []
  | leaf _ _ rest => id :: rest.rootIds (id + 1)
  | node _ kids rest => id :: rest.rootIds (id + 1 + kids.size)

/-- The node table of a forest stored from `id` on, at text position `pos`. -/
def flatten (p : Option Nat) (id pos : Nat) : Forest → List NodeData
  | nil => []
  | leaf ty len rest => ⟨ty, p, [], ⟨pos, pos + len⟩⟩ :: rest.flatten p (id + 1) (pos + len)
  | node ty kids rest =>
    ⟨ty, p, kids.rootIds (id + 1), ⟨pos, pos + kids.len⟩⟩ ::
      (kids.flatten (some id) (id + 1) pos ++
        rest.flatten p (id + 1 + kids.size) (pos + kids.len))

theorem flatten_length (f : Forest) (p : Option Nat) (id pos : Nat) :
    (f.flatten p id pos).length = f.size := by
  induction f generalizing p id pos with
  | nil => rfl
  | leaf ty len rest ih => simp [flatten, size, ih]; omega
  | node ty kids rest ih1 ih2 => simp [flatten, size, ih1, ih2]; omega

end Forest

theorem updateCurrent_eq {N : List NodeData} {top pos : Nat} {st : List Nat} {d d' : NodeData}
    {g : NodeData → Option NodeData} (hd : N[top]? = some d) (hg : g d = some d') :
    (⟨N, top :: st, pos⟩ : TreeBuilder).updateCurrent g = some ⟨N.set top d', top :: st, pos⟩ := by
  simp [TreeBuilder.updateCurrent, TreeBuilder.currentId, hd, hg]

theorem pushChild_eq {N : List NodeData} {top pos : Nat} {st : List Nat} {d c : NodeData}
    (hd : N[top]? = some d) :
    (⟨N, top :: st, pos⟩ : TreeBuilder).pushChild c = some
      (⟨N.set top ⟨d.ty, d.parent, d.children ++ [N.length], d.range⟩ ++
            [⟨c.ty, some top, c.children, c.range⟩], top :: st, pos⟩, N.length) := by
  have hlt : top < N.length := (List.getElem?_eq_some_iff.1 hd).1
  have hd' : (N ++ [⟨c.ty, some top, c.children, c.range⟩])[top]? = some d := by
    rw [List.getElem?_append_left hlt]; exact hd
  simp only [TreeBuilder.pushChild, TreeBuilder.currentId, List.head?_cons, Option.bind_eq_bind,
    Option.bind_some, TreeBuilder.newNode]
  rw [updateCurrent_eq (d' := ⟨d.ty, d.parent, d.children ++ [N.length], d.range⟩) hd' ?_]
  · simp [List.set_append_left _ _ hlt]
  · rfl

theorem addLen_eq {N : List NodeData} {top child pos : Nat} {st : List Nat} {d c : NodeData}
    (hd : N[top]? = some d)
    (hc : N[child]? = some c) (h1 : d.range.stop = c.range.start)
    (h2 : d.range.start ≤ c.range.stop) :
    (⟨N, top :: st, pos⟩ : TreeBuilder).addLen child = some
      ⟨N.set top ⟨d.ty, d.parent, d.children, ⟨d.range.start, c.range.stop⟩⟩, top :: st, pos⟩ := by
  simp only [TreeBuilder.addLen, hc, Option.bind_eq_bind, Option.bind_some]
  exact updateCurrent_eq hd (by simp [grow, h1, TextRange.fromTo, h2])

theorem leaf_eq {N : List NodeData} {top pos : Nat} {st : List Nat} {d : NodeData}
    (hd : N[top]? = some d) (hpos : d.range.stop = pos) (hv : d.range.start ≤ d.range.stop)
    (ty len : Nat) :
    (⟨N, top :: st, pos⟩ : TreeBuilder).leaf ty len = some
      ⟨N.set top ⟨d.ty, d.parent, d.children ++ [N.length], ⟨d.range.start, pos + len⟩⟩ ++
        [⟨ty, some top, [], ⟨pos, pos + len⟩⟩], top :: st, pos + len⟩ := by
  have hlt : top < N.length := (List.getElem?_eq_some_iff.1 hd).1
  have hfl : TextRange.fromLen pos len = some ⟨pos, pos + len⟩ := by
    simp [TextRange.fromLen, TextRange.fromTo]
  simp only [TreeBuilder.leaf, hfl, Option.bind_eq_bind, Option.bind_some, pushChild_eq hd]
  rw [addLen_eq (d := ⟨d.ty, d.parent, d.children ++ [N.length], d.range⟩)
    (c := ⟨ty, some top, [], ⟨pos, pos + len⟩⟩)]
  · simp [List.set_append_left, hlt]
  · rw [List.getElem?_append_left (by simpa using hlt)]
    simp [List.getElem?_set_self hlt]
  · simp
  · exact hpos
  · simp; omega

theorem start_eq {N : List NodeData} {top pos : Nat} {st : List Nat} {d : NodeData}
    (hd : N[top]? = some d) (ty : Nat) :
    (⟨N, top :: st, pos⟩ : TreeBuilder).startInternal ty = some
      ⟨N.set top ⟨d.ty, d.parent, d.children ++ [N.length], d.range⟩ ++
        [⟨ty, some top, [], ⟨pos, pos⟩⟩], N.length :: top :: st, pos⟩ := by
  have hfl : TextRange.fromLen pos 0 = some ⟨pos, pos⟩ := by
    simp [TextRange.fromLen, TextRange.fromTo]
  simp only [TreeBuilder.startInternal, hfl, Option.bind_eq_bind, Option.bind_some,
    List.isEmpty_cons, Bool.false_eq_true, if_false, pushChild_eq hd]
  rfl

theorem finish_eq {N : List NodeData} {id top pos : Nat} {st : List Nat} {d c : NodeData}
    (hd : N[top]? = some d)
    (hc : N[id]? = some c) (h1 : d.range.stop = c.range.start)
    (h2 : d.range.start ≤ c.range.stop) :
    (⟨N, id :: top :: st, pos⟩ : TreeBuilder).finishInternal = some
      ⟨N.set top ⟨d.ty, d.parent, d.children, ⟨d.range.start, c.range.stop⟩⟩, top :: st, pos⟩ := by
  simp only [TreeBuilder.finishInternal, List.isEmpty_cons, Bool.not_false, if_true]
  exact addLen_eq hd hc h1 h2

/-- Running the calls of a forest inside a node. -/
theorem run_forest (f : Forest) (N : List NodeData) (top pos : Nat) (st : List Nat) (d : NodeData)
    (hd : N[top]? = some d) (hpos : d.range.stop = pos) (hv : d.range.start ≤ d.range.stop) :
    f.ops.foldlM BuilderOp.run ⟨N, top :: st, pos⟩ = some
      ⟨N.set top ⟨d.ty, d.parent, d.children ++ f.rootIds N.length,
          ⟨d.range.start, pos + f.len⟩⟩ ++ f.flatten (some top) N.length pos,
        top :: st, pos + f.len⟩ := by
  induction f generalizing N top pos st d with
  | nil =>
    have : N.set top d = N := by
      rw [List.getElem?_eq_some_iff] at hd
      obtain ⟨h, rfl⟩ := hd
      exact List.set_getElem_self h
    subst hpos
    simp [Forest.ops, Forest.rootIds, Forest.len, Forest.flatten, this]
  | leaf ty len rest ih =>
    have hlt : top < N.length := (List.getElem?_eq_some_iff.1 hd).1
    simp only [Forest.ops, List.foldlM_cons, Option.bind_eq_bind, BuilderOp.run,
      leaf_eq hd hpos hv, Option.bind_some]
    rw [ih _ top _ st ⟨d.ty, d.parent, d.children ++ [N.length], ⟨d.range.start, pos + len⟩⟩ ?_ rfl ?_]
    · simp [Forest.rootIds, Forest.len, Forest.flatten, List.set_append_left, hlt, Nat.add_assoc]
    · rw [List.getElem?_append_left (by simpa using hlt)]
      simp [List.getElem?_set_self hlt]
    · simp; omega
  | node ty kids rest ih1 ih2 =>
    have hlt : top < N.length := (List.getElem?_eq_some_iff.1 hd).1
    simp only [Forest.ops, List.foldlM_cons, List.foldlM_append, Option.bind_eq_bind,
      BuilderOp.run, start_eq hd, Option.bind_some]
    rw [ih1 _ N.length pos (top :: st) ⟨ty, some top, [], ⟨pos, pos⟩⟩ (by simp) rfl
      (Nat.le_refl _)]
    simp only [Option.bind_some]
    have hset : ∀ x : NodeData, (N.set top ⟨d.ty, d.parent, d.children ++ [N.length], d.range⟩ ++
        [(⟨ty, some top, [], ⟨pos, pos⟩⟩ : NodeData)]).set N.length x =
        N.set top ⟨d.ty, d.parent, d.children ++ [N.length], d.range⟩ ++ [x] := by
      intro x
      rw [List.set_append_right _ _ (by simp)]
      simp
    rw [hset]
    simp only [List.nil_append, List.length_append, List.length_set, List.length_singleton]
    rw [finish_eq (d := ⟨d.ty, d.parent, d.children ++ [N.length], d.range⟩)
      (c := ⟨ty, some top, kids.rootIds (N.length + 1), ⟨pos, pos + kids.len⟩⟩)
      ?_ ?_ hpos ?_]
    · simp only [Option.bind_some]
      rw [ih2 _ top _ st ⟨d.ty, d.parent, d.children ++ [N.length],
        ⟨d.range.start, pos + kids.len⟩⟩ ?_ rfl ?_]
      · simp [Forest.rootIds, Forest.len, Forest.flatten, List.set_append_left, hlt,
          Nat.add_assoc, Forest.flatten_length, Nat.add_comm 1]
      · simp [List.set_append_left, hlt, List.getElem?_append_left, List.getElem?_set_self]
      · simp; omega
    · simp [List.getElem?_append_left, hlt, List.getElem?_set_self]
    · simp
    · simp; omega

/-- Forests that can be built outside of any node: all roots are inner nodes. -/
def Forest.noLeafRoot : Forest → Bool
  | nil => true
  | leaf _ _ _ => false
  | node _ _ rest => rest.noLeafRoot

theorem run_roots (f : Forest) (N : List NodeData) (pos : Nat) (hf : f.noLeafRoot = true) :
    f.ops.foldlM BuilderOp.run ⟨N, [], pos⟩ = some
      ⟨N ++ f.flatten none N.length pos, [], pos + f.len⟩ := by
  induction f generalizing N pos with
  | nil => simp [Forest.ops, Forest.flatten, Forest.len]
  | leaf ty len rest ih => simp [Forest.noLeafRoot] at hf
  | node ty kids rest ih1 ih2 =>
    have hstart : (⟨N, [], pos⟩ : TreeBuilder).startInternal ty = some
        ⟨N ++ [⟨ty, none, [], ⟨pos, pos⟩⟩], [N.length], pos⟩ := by
      simp [TreeBuilder.startInternal, TextRange.fromLen, TextRange.fromTo, TreeBuilder.newNode]
    simp only [Forest.ops, List.foldlM_cons, List.foldlM_append, Option.bind_eq_bind,
      BuilderOp.run, hstart, Option.bind_some]
    rw [run_forest kids _ N.length pos [] ⟨ty, none, [], ⟨pos, pos⟩⟩ (by simp) rfl
      (Nat.le_refl _)]
    simp only [Option.bind_some, TreeBuilder.finishInternal, List.isEmpty_nil, Bool.not_true,
      Bool.false_eq_true, if_false]
    rw [ih2 _ _ (by simpa [Forest.noLeafRoot] using hf)]
    simp [Forest.len, Forest.flatten, Forest.flatten_length, Nat.add_assoc, Nat.add_comm 1,
      List.set_append_right]

/-! ## Balanced call sequences are the calls of a forest -/

theorem depth_append (d : Nat) (xs ys : List BuilderOp) :
    depth d (xs ++ ys) = (depth d xs).bind (depth · ys) := by
  induction xs generalizing d with
  | nil => simp [depth]
  | cons x xs ih =>
    cases x <;> cases d <;> simp [depth, ih]

theorem Forest.depth_ops (f : Forest) (d : Nat) (h : d ≠ 0 ∨ f.noLeafRoot = true) :
    depth d f.ops = some d := by
  induction f generalizing d with
  | nil => simp [ops, depth]
  | leaf ty len rest ih =>
    cases d with
    | zero => simp [noLeafRoot] at h
    | succ d => simp [ops, depth, ih]
  | node ty kids rest ih1 ih2 =>
    simp only [ops, depth, depth_append, ih1 (d + 1) (by simp), Option.bind_some]
    exact ih2 d (by simpa [noLeafRoot] using h)

/-- Decomposition: from depth `d`, either the calls stay at or above `d` and are a forest, or they
leave it with a `finish`. -/
theorem decompose (n : Nat) (ops : List BuilderOp) (hn : ops.length ≤ n) (d e : Nat)
    (h : depth d ops = some e) (hle : e ≤ d) :
    ∃ f : Forest, (d ≠ 0 ∨ f.noLeafRoot = true) ∧
      ((e = d ∧ ops = f.ops) ∨ ∃ rest, 0 < d ∧ ops = f.ops ++ .finish :: rest ∧ depth (d - 1) rest = some e) := by
  induction n generalizing ops d e with
  | zero =>
    have : ops = [] := List.length_eq_zero_iff.1 (by omega)
    subst this
    simp [depth] at h
    exact ⟨.nil, .inr rfl, .inl ⟨h.symm, rfl⟩⟩
  | succ n ih =>
    cases ops with
    | nil =>
      simp [depth] at h
      exact ⟨.nil, .inr rfl, .inl ⟨h.symm, rfl⟩⟩
    | cons op ops =>
      simp at hn
      cases op with
      | leaf ty len =>
        cases d with
        | zero => simp [depth] at h
        | succ d =>
          simp only [depth] at h
          obtain ⟨f, hf, hc⟩ := ih ops (by omega) (d + 1) e h hle
          refine ⟨.leaf ty len f, .inl (by simp), ?_⟩
          rcases hc with ⟨h1, h2⟩ | ⟨rest, h1, h2, h3⟩
          · exact .inl ⟨h1, by simp [Forest.ops, h2]⟩
          · exact .inr ⟨rest, h1, by simp [Forest.ops, h2], h3⟩
      | finish =>
        cases d with
        | zero => simp [depth] at h
        | succ d =>
          simp only [depth] at h
          exact ⟨.nil, .inr rfl, .inr ⟨ops, by simp, by simp [Forest.ops], by simpa using h⟩⟩
      | start ty =>
        simp only [depth] at h
        obtain ⟨kids, _, hc⟩ := ih ops (by omega) (d + 1) e h (by omega)
        rcases hc with ⟨h1, _⟩ | ⟨rest, _, h2, h3⟩
        · omega
        · have hl : rest.length ≤ n := by
            rw [h2] at hn; simp at hn; omega
          obtain ⟨f, hf, hc⟩ := ih rest hl d e (by simpa using h3) hle
          refine ⟨.node ty kids f, hf, ?_⟩
          rcases hc with ⟨h4, h5⟩ | ⟨rest', h4, h5, h6⟩
          · exact .inl ⟨h4, by simp [Forest.ops, h2, h5]⟩
          · exact .inr ⟨rest', h4, by simp [Forest.ops, h2, h5], h6⟩

theorem balanced_forest {ops : List BuilderOp} (h : Balanced ops) :
    ∃ f : Forest, f.noLeafRoot = true ∧ ops = f.ops := by
  obtain ⟨f, hf, hc⟩ := decompose ops.length ops (Nat.le_refl _) 0 0 h (Nat.le_refl _)
  rcases hc with ⟨_, h2⟩ | ⟨_, h1, _⟩
  · exact ⟨f, by simpa using hf, h2⟩
  · omega

theorem leafLen_append (xs ys : List BuilderOp) :
    leafLen (xs ++ ys) = leafLen xs + leafLen ys := by
  induction xs with
  | nil => simp [leafLen]
  | cons x xs ih => cases x <;> simp [leafLen, ih, Nat.add_assoc]

theorem Forest.leafLen_ops (f : Forest) : leafLen f.ops = f.len := by
  induction f with
  | nil => rfl
  | leaf ty len rest ih => simp [ops, leafLen, Forest.len, ih]
  | node ty kids rest ih1 ih2 => simp [ops, leafLen, leafLen_append, Forest.len, ih1, ih2]

theorem singleRoot_forest {ops : List BuilderOp} (h : SingleRoot ops) :
    ∃ ty kids, ops = (Forest.node ty kids .nil).ops := by
  obtain ⟨ty, body, rfl, h1, h2⟩ := h
  obtain ⟨f, _, hc⟩ := decompose body.length body (Nat.le_refl _) 1 1 h1 (Nat.le_refl _)
  rcases hc with ⟨_, h4⟩ | ⟨rest, _, h4, h5⟩
  · exact ⟨ty, f, by simp [Forest.ops, h4]⟩
  · exfalso
    apply h2 (f.ops ++ [.finish]) ⟨rest, by simp [h4]⟩
    rw [depth_append, f.depth_ops 1 (by simp)]
    rfl

/-! ## The depth function predicts panics -/

theorem run_depth (ops : List BuilderOp) (b : TreeBuilder) (d : Nat)
    (hd : b.inProgress.length = d) (b' : TreeBuilder)
    (h : ops.foldlM BuilderOp.run b = some b') : depth d ops = some b'.inProgress.length := by
  have hup : ∀ (b b' : TreeBuilder) (g : NodeData → Option NodeData),
      b.updateCurrent g = some b' → b'.inProgress = b.inProgress ∧ b.inProgress ≠ [] := by
    intro b b' g h
    simp only [TreeBuilder.updateCurrent, TreeBuilder.currentId, Option.bind_eq_bind,
      Option.bind_eq_some_iff, Option.pure_def, Option.some.injEq] at h
    obtain ⟨id, h1, _, _, _, _, rfl⟩ := h
    refine ⟨rfl, ?_⟩
    intro he
    simp [he] at h1
  have hal : ∀ (b b' : TreeBuilder) (c : Nat),
      b.addLen c = some b' → b'.inProgress = b.inProgress ∧ b.inProgress ≠ [] := by
    intro b b' c h
    simp only [TreeBuilder.addLen, Option.bind_eq_bind, Option.bind_eq_some_iff] at h
    obtain ⟨_, _, h⟩ := h
    exact hup _ _ _ h
  have hpc : ∀ (b : TreeBuilder) (c : NodeData) (r : TreeBuilder × Nat),
      b.pushChild c = some r → r.1.inProgress = b.inProgress ∧ b.inProgress ≠ [] := by
    intro b c r h
    simp only [TreeBuilder.pushChild, TreeBuilder.newNode, Option.bind_eq_bind,
      Option.bind_eq_some_iff, Option.pure_def, Option.some.injEq] at h
    obtain ⟨_, _, b1, h1, rfl⟩ := h
    have := hup _ _ _ h1
    exact this
  induction ops generalizing b d with
  | nil => simp at h; subst h; simp [depth, hd]
  | cons op ops ih =>
    simp only [List.foldlM_cons, Option.bind_eq_bind, Option.bind_eq_some_iff] at h
    obtain ⟨b1, h1, h2⟩ := h
    cases op with
    | leaf ty len =>
      simp only [BuilderOp.run, TreeBuilder.leaf, Option.bind_eq_bind, Option.bind_eq_some_iff] at h1
      obtain ⟨_, _, r, h3, h4⟩ := h1
      obtain ⟨e1, e2⟩ := hpc _ _ _ h3
      obtain ⟨e3, _⟩ := hal _ _ _ h4
      simp only at e1 e2
      cases d with
      | zero => exact absurd (List.length_eq_zero_iff.1 hd) e2
      | succ d =>
        simp only [depth]
        exact ih b1 (d + 1) (by rw [e3, e1]; exact hd) h2
    | start ty =>
      simp only [depth]
      apply ih b1 (d + 1) ?_ h2
      simp only [BuilderOp.run, TreeBuilder.startInternal, Option.bind_eq_bind,
        Option.pure_def] at h1
      obtain ⟨_, _, h1⟩ := Option.bind_eq_some_iff.1 h1
      split at h1
      · simp only [TreeBuilder.newNode, Option.bind_some, Option.some.injEq] at h1
        subst h1
        simp [hd]
      · obtain ⟨r, h3, h4⟩ := Option.bind_eq_some_iff.1 h1
        cases h4
        have := (hpc _ _ _ h3).1
        simp [this, hd]
    | finish =>
      simp only [BuilderOp.run, TreeBuilder.finishInternal] at h1
      split at h1
      · simp at h1
      · rename_i id rest hb
        rw [hb] at hd
        simp at hd
        subst hd
        simp only [depth]
        apply ih b1 rest.length ?_ h2
        split at h1
        · have := (hal _ _ _ h1).1
          simp [this]
        · cases h1; rfl

/-! ## The table of a forest is consistent -/

/-- The part of table `N` from `id` on is the table of the forest. -/
def Repr (N : List NodeData) (p : Option Nat) (id pos : Nat) : Forest → Prop
  | .nil => True
  | .leaf ty len rest =>
    N[id]? = some ⟨ty, p, [], ⟨pos, pos + len⟩⟩ ∧ Repr N p (id + 1) (pos + len) rest
  | .node ty kids rest =>
    N[id]? = some ⟨ty, p, kids.rootIds (id + 1), ⟨pos, pos + kids.len⟩⟩ ∧
      Repr N (some id) (id + 1) pos kids ∧ Repr N p (id + 1 + kids.size) (pos + kids.len) rest

theorem repr_flatten (f : Forest) (N : List NodeData) (p : Option Nat) (id pos : Nat)
    (h : ∀ k, k < f.size → N[id + k]? = (f.flatten p id pos)[k]?) : Repr N p id pos f := by
  induction f generalizing p id pos with
  | nil => trivial
  | leaf ty len rest ih =>
    refine ⟨by simpa [Forest.flatten] using h 0 (by simp [Forest.size]; omega), ih _ _ _ ?_⟩
    intro k hk
    have := h (k + 1) (by simp [Forest.size]; omega)
    rw [← Nat.add_assoc, Nat.add_right_comm] at this
    simpa [Forest.flatten] using this
  | node ty kids rest ih1 ih2 =>
    refine ⟨by simpa [Forest.flatten] using h 0 (by simp [Forest.size]; omega), ih1 _ _ _ ?_,
      ih2 _ _ _ ?_⟩
    · intro k hk
      have := h (k + 1) (by simp [Forest.size]; omega)
      rw [← Nat.add_assoc, Nat.add_right_comm] at this
      simp only [Forest.flatten, List.getElem?_cons_succ] at this
      rw [this, List.getElem?_append_left (by rw [Forest.flatten_length]; exact hk)]
    · intro k hk
      have := h (kids.size + k + 1) (by simp [Forest.size]; omega)
      simp only [Forest.flatten, List.getElem?_cons_succ] at this
      rw [List.getElem?_append_right (by rw [Forest.flatten_length]; omega),
        Forest.flatten_length] at this
      rw [show kids.size + k - kids.size = k by omega] at this
      rw [← this]
      congr 1
      omega

theorem Forest.rootIds_mem (f : Forest) (id c : Nat) (h : c ∈ f.rootIds id) :
    id ≤ c ∧ c < id + f.size := by
  induction f generalizing id with
  | nil => simp [rootIds] at h
  | leaf ty len rest ih =>
    simp only [rootIds, List.mem_cons] at h
    simp only [size]
    rcases h with rfl | h
    · omega
    · have := ih _ h; omega
  | node ty kids rest ih1 ih2 =>
    simp only [rootIds, List.mem_cons] at h
    simp only [size]
    rcases h with rfl | h
    · omega
    · have := ih2 _ h; omega

theorem Forest.rootIds_sorted (f : Forest) (id : Nat) : (f.rootIds id).Pairwise (· < ·) := by
  induction f generalizing id with
  | nil => simp [rootIds]
  | leaf ty len rest ih =>
    simp only [rootIds, List.pairwise_cons]
    exact ⟨fun c hc => by have := rest.rootIds_mem _ _ hc; omega, ih _⟩
  | node ty kids rest ih1 ih2 =>
    simp only [rootIds, List.pairwise_cons]
    exact ⟨fun c hc => by have := rest.rootIds_mem _ _ hc; omega, ih2 _⟩

theorem repr_roots {N : List NodeData} {p : Option Nat} {id pos : Nat} {f : Forest}
    (h : Repr N p id pos f) {c : Nat} (hc : c ∈ f.rootIds id) :
    ∃ e, N[c]? = some e ∧ e.parent = p := by
  induction f generalizing id pos with
  | nil => simp [Forest.rootIds] at hc
  | leaf ty len rest ih =>
    simp only [Forest.rootIds, List.mem_cons] at hc
    rcases hc with rfl | hc
    · exact ⟨_, h.1, rfl⟩
    · exact ih h.2 hc
  | node ty kids rest ih1 ih2 =>
    simp only [Forest.rootIds, List.mem_cons] at hc
    rcases hc with rfl | hc
    · exact ⟨_, h.1, rfl⟩
    · exact ih2 h.2.2 hc

theorem repr_tiles {N : List NodeData} {p : Option Nat} {id pos : Nat} {f : Forest}
    (h : Repr N p id pos f) :
    ∃ rs, (f.rootIds id).mapM (fun c => N[c]?.map (·.range)) = some rs ∧
      Tiles rs pos (pos + f.len) := by
  induction f generalizing id pos with
  | nil => exact ⟨[], rfl, rfl⟩
  | leaf ty len rest ih =>
    obtain ⟨rs, h1, h2⟩ := ih h.2
    refine ⟨⟨pos, pos + len⟩ :: rs, ?_, rfl, by simp, ?_⟩
    · simp [Forest.rootIds, h.1, h1]
    · simpa [Forest.len, Nat.add_assoc] using h2
  | node ty kids rest ih1 ih2 =>
    obtain ⟨rs, h1, h2⟩ := ih2 h.2.2
    refine ⟨⟨pos, pos + kids.len⟩ :: rs, ?_, rfl, by simp, ?_⟩
    · simp [Forest.rootIds, h.1, h1]
    · simpa [Forest.len, Nat.add_assoc] using h2

/-- Local consistency of every node of the segment. -/
theorem repr_local {N : List NodeData} {p : Option Nat} {id pos : Nat} {f : Forest}
    (h : Repr N p id pos f) {n : Nat} {d : NodeData} (h1 : id ≤ n) (h2 : n < id + f.size)
    (hd : N[n]? = some d) :
    (∀ c ∈ d.children, n < c ∧ ∃ e, N[c]? = some e ∧ e.parent = some n) ∧
    d.children.Pairwise (· < ·) ∧ d.range.start ≤ d.range.stop ∧
    (d.children ≠ [] → ∃ rs, d.children.mapM (fun c => N[c]?.map (·.range)) = some rs ∧
      Tiles rs d.range.start d.range.stop) ∧
    ((n ∈ f.rootIds id ∧ d.parent = p) ∨
      ∃ q e, d.parent = some q ∧ N[q]? = some e ∧ n ∈ e.children) := by
  induction f generalizing p id pos with
  | nil => simp [Forest.size] at h2; omega
  | leaf ty len rest ih =>
    simp only [Forest.size] at h2
    by_cases hn : n = id
    · subst hn
      rw [h.1] at hd
      cases hd
      simp [Forest.rootIds]
    · obtain ⟨a1, a2, a3, a4, a5⟩ := ih h.2 (by omega) (by omega)
      refine ⟨a1, a2, a3, a4, ?_⟩
      rcases a5 with ⟨a6, a7⟩ | a6
      · exact .inl ⟨by simp [Forest.rootIds, a6], a7⟩
      · exact .inr a6
  | node ty kids rest ih1 ih2 =>
    simp only [Forest.size] at h2
    by_cases hn : n = id
    · subst hn
      rw [h.1] at hd
      cases hd
      refine ⟨?_, kids.rootIds_sorted _, by simp, fun _ => repr_tiles h.2.1, ?_⟩
      · intro c hc
        refine ⟨?_, repr_roots h.2.1 hc⟩
        have := kids.rootIds_mem _ _ hc
        omega
      · exact .inl ⟨by simp [Forest.rootIds], rfl⟩
    · by_cases hk : n < id + 1 + kids.size
      · obtain ⟨a1, a2, a3, a4, a5⟩ := ih1 h.2.1 (by omega) (by omega)
        refine ⟨a1, a2, a3, a4, ?_⟩
        rcases a5 with ⟨a6, a7⟩ | a6
        · exact .inr ⟨id, _, a7, h.1, a6⟩
        · exact .inr a6
      · obtain ⟨a1, a2, a3, a4, a5⟩ := ih2 h.2.2 (by omega) (by omega)
        refine ⟨a1, a2, a3, a4, ?_⟩
        rcases a5 with ⟨a6, a7⟩ | a6
        · exact .inl ⟨by simp [Forest.rootIds, a6], a7⟩
        · exact .inr a6

/-- The table of a single tree is consistent. -/
theorem consistent_single (ty : NodeType) (kids : Forest) :
    Consistent ((Forest.node ty kids .nil).flatten none 0 0) := by
  generalize hN : (Forest.node ty kids .nil).flatten none 0 0 = N
  have hlen : N.length = 1 + kids.size := by
    rw [← hN, Forest.flatten_length]; simp [Forest.size]
  have hr : Repr N none 0 0 (.node ty kids .nil) := by
    apply repr_flatten
    intro k _
    rw [hN]; simp
  have hloc : ∀ (n : Nat) (d : NodeData), N[n]? = some d → _ := fun n d hd =>
    repr_local hr (Nat.zero_le n) (by
      have := (List.getElem?_eq_some_iff.1 hd).1
      simp [Forest.size]; omega) hd
  refine ⟨⟨_, hr.1, rfl⟩, ?_, ?_, ?_, ?_, ?_, ?_⟩
  · intro n d hd hn
    obtain ⟨_, _, _, _, h5⟩ := hloc n d hd
    rcases h5 with ⟨h6, _⟩ | ⟨q, e, h6, _⟩
    · simp [Forest.rootIds] at h6; omega
    · simp [h6]
  · intro n d c hd hc
    exact (hloc n d hd).1 c hc
  · intro c e n he hp
    obtain ⟨_, _, _, _, h5⟩ := hloc c e he
    rcases h5 with ⟨_, h6⟩ | ⟨q, e', h6, h7, h8⟩
    · rw [h6] at hp; simp at hp
    · rw [h6] at hp
      cases hp
      exact ⟨e', h7, h8⟩
  · intro n d hd
    exact (hloc n d hd).2.1.imp (fun h => Nat.ne_of_lt h)
  · intro n d hd
    exact (hloc n d hd).2.2.1
  · intro n d hd
    exact (hloc n d hd).2.2.2.1

theorem buildNodes_roots (f : Forest) (hf : f.noLeafRoot = true) :
    buildNodes f.ops = some (f.flatten none 0 0) := by
  unfold buildNodes
  have := run_roots f [] 0 hf
  simp [TreeBuilder.new, this, TreeBuilder.finish]

theorem repr_single (ty : NodeType) (kids : Forest) :
    Repr ((Forest.node ty kids .nil).flatten none 0 0) none 0 0 (.node ty kids .nil) := by
  apply repr_flatten
  intro k _
  simp

theorem repr_replays {f : File α} {p : Option Nat} {id pos : Nat} {t : Forest}
    (h : Repr f.nodes p id pos t) : ReplaysAll f (t.rootIds id) t.ops := by
  induction t generalizing p id pos with
  | nil => exact .nil
  | leaf ty len rest ih =>
    obtain ⟨h1, h2⟩ := h
    have hl : Replays f id [.leaf ty (pos + len - pos)] := by
      exact .leaf (by simp [File.ty, File.data, h1]) (by simp [File.children, File.data, h1])
        (r := ⟨pos, pos + len⟩) (by simp [File.range, File.data, h1])
    have he : pos + len - pos = len := by omega
    rw [he] at hl
    exact .cons hl (ih h2)
  | node ty kids rest ih1 ih2 =>
    obtain ⟨h1, h2, h3⟩ := h
    have := ReplaysAll.cons
      (Replays.node (f := f) (n := id) (ty := ty) (by simp [File.ty, File.data, h1])
        (by simp [File.children, File.data, h1]) (ih1 h2)) (ih2 h3)
    simpa [Forest.ops, Forest.rootIds] using this

theorem forest_prefix (t : Forest) (d : Nat) (pre : List BuilderOp) (h : pre <+: t.ops) (k : Nat)
    (hk : depth (d + 1) pre = some k) : d + 1 ≤ k := by
  induction t generalizing d pre k with
  | nil =>
    simp only [Forest.ops, List.prefix_nil] at h
    subst h
    simp [depth] at hk; omega
  | leaf ty len rest ih =>
    simp only [Forest.ops, List.prefix_cons_iff] at h
    rcases h with rfl | ⟨t, rfl, h⟩
    · simp [depth] at hk; omega
    · exact ih d t h k (by simpa [depth] using hk)
  | node ty kids rest ih1 ih2 =>
    simp only [Forest.ops, List.prefix_cons_iff] at h
    rcases h with rfl | ⟨t, rfl, h⟩
    · simp [depth] at hk; omega
    · simp only [depth] at hk
      obtain ⟨u, hu⟩ := h
      rw [List.append_eq_append_iff] at hu
      rcases hu with ⟨a, h1, h2⟩ | ⟨a, h1, h2⟩
      · have := ih1 (d + 1) t ⟨a, h1.symm⟩ k hk; omega
      · subst h1
        rw [depth_append, Forest.depth_ops kids _ (.inl (by omega))] at hk
        simp only [Option.bind_some] at hk
        cases a with
        | nil => simp [depth] at hk; omega
        | cons x a =>
          simp only [List.cons_append, List.cons.injEq] at h2
          obtain ⟨rfl, h2⟩ := h2
          simp only [depth] at hk
          exact ih2 d a ⟨u, h2.symm⟩ k hk

theorem forest_singleRoot (ty : NodeType) (kids : Forest) :
    SingleRoot (Forest.node ty kids .nil).ops := by
  refine ⟨ty, kids.ops, by simp [Forest.ops], Forest.depth_ops kids 1 (.inl (by omega)), ?_⟩
  intro pre hp hd
  have := forest_prefix kids 0 pre hp 0 hd
  omega

/-- A consistent table of a forest has one root. -/
theorem consistent_forest {t : Forest} (ht : t.noLeafRoot = true)
    (hc : Consistent (t.flatten none 0 0)) : ∃ ty kids, t = .node ty kids .nil := by
  cases t with
  | nil => obtain ⟨d, h, _⟩ := hc.root; simp [Forest.flatten] at h
  | leaf => simp [Forest.noLeafRoot] at ht
  | node ty kids rest =>
    refine ⟨ty, kids, ?_⟩
    have hr : Repr ((Forest.node ty kids rest).flatten none 0 0) none 0 0 (.node ty kids rest) := by
      apply repr_flatten
      intro k _
      simp
    obtain ⟨_, _, h3⟩ := hr
    cases rest with
    | nil => rfl
    | leaf => simp [Forest.noLeafRoot] at ht
    | node ty2 kids2 rest2 =>
      obtain ⟨h4, _⟩ := h3
      have := hc.nonroot _ _ h4 (by omega)
      simp at this

end Fall
