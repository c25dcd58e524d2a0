import Verif.Spec.Symbols
import Verif.Lemmas.Lines

/-!
Lemmas about symbol search.
-/

namespace Fall

open Spec

namespace Symbols

theorem lexLe_refl (a : List UInt8) : lexLe a a = true := by
  induction a with
  | nil => rfl
  | cons a as ih => simp [lexLe, ih]

theorem lexLe_total (a b : List UInt8) : (lexLe a b || lexLe b a) = true := by
  induction a generalizing b with
  | nil => simp [lexLe]
  | cons a as ih =>
    cases b with
    | nil => simp [lexLe]
    | cons b bs =>
      have := ih bs
      simp only [lexLe, Bool.or_eq_true, Bool.and_eq_true, decide_eq_true_eq] at this ⊢
      rcases Nat.lt_trichotomy a.toNat b.toNat with h | h | h
      · exact Or.inl (Or.inl h)
      · have hab : a = b := UInt8.toNat_inj.1 h
        subst hab
        rcases this with h | h
        · exact Or.inl (Or.inr ⟨rfl, h⟩)
        · exact Or.inr (Or.inr ⟨rfl, h⟩)
      · exact Or.inr (Or.inl h)

theorem lexLe_trans (a b c : List UInt8) (h1 : lexLe a b = true) (h2 : lexLe b c = true) : lexLe a c = true := by
  induction a generalizing b c with
  | nil => simp [lexLe]
  | cons a as ih =>
    cases b with
    | nil => simp [lexLe] at h1
    | cons b bs =>
      cases c with
      | nil => simp [lexLe] at h2
      | cons c cs =>
        simp only [lexLe, Bool.or_eq_true, Bool.and_eq_true, decide_eq_true_eq] at h1 h2 ⊢
        rcases h1 with h1 | ⟨rfl, h1⟩
        · rcases h2 with h2 | ⟨rfl, h2⟩
          · exact Or.inl (by omega)
          · exact Or.inl h1
        · rcases h2 with h2 | ⟨rfl, h2⟩
          · exact Or.inl h2
          · exact Or.inr ⟨rfl, ih _ _ h1 h2⟩

theorem lexLe_antisymm (a b : List UInt8) (h1 : lexLe a b = true) (h2 : lexLe b a = true) : a = b := by
  induction a generalizing b with
  | nil => cases b with | nil => rfl | cons b bs => simp [lexLe] at h2
  | cons a as ih =>
    cases b with
    | nil => simp [lexLe] at h1
    | cons b bs =>
      simp only [lexLe, Bool.or_eq_true, Bool.and_eq_true, decide_eq_true_eq] at h1 h2
      rcases h1 with h1 | ⟨rfl, h1⟩
      · rcases h2 with h2 | ⟨rfl, h2⟩ <;> omega
      · rcases h2 with h2 | ⟨-, h2⟩
        · omega
        · rw [ih _ h1 h2]

variable {key : α → List UInt8}

theorem dedup_mem {l : List α} (hl : l.Pairwise fun a b => lexLe (key a) (key b) = true) (s : α) :
    s ∈ dedupByKey key l ↔ l.find? (fun t => decide (key t = key s)) = some s := by
  induction l using dedupByKey.induct (key := key) with
  | case1 => simp [dedupByKey]
  | case2 a =>
    simp only [dedupByKey, List.mem_singleton, List.find?_cons, List.find?_nil]
    constructor
    · rintro rfl; simp
    · intro h
      split at h
      · simp at h; exact h.symm
      · simp at h
  | case3 a b rest hab ih =>
    rw [dedupByKey, if_pos hab]
    rw [List.pairwise_cons] at hl
    have hr := List.pairwise_cons.1 hl.2
    rw [ih (List.pairwise_cons.2 ⟨fun x hx => hl.1 x (List.mem_cons_of_mem _ hx), hr.2⟩)]
    simp only [List.find?_cons]
    by_cases h : key a = key s
    · simp [h]
    · have h' : ¬ key b = key s := by rw [← hab]; exact h
      simp [h, h']
  | case4 a b rest hab ih =>
    rw [dedupByKey, if_neg hab, List.mem_cons]
    rw [List.pairwise_cons] at hl
    rw [ih hl.2, List.find?_cons (a := a)]
    by_cases h : key a = key s
    · simp only [h, decide_true, Option.some.injEq]
      constructor
      · rintro (rfl | h2)
        · rfl
        · exfalso
          have h3 := List.mem_of_find?_eq_some h2
          have h4 := hl.1 b List.mem_cons_self
          have h5 : lexLe (key b) (key s) = true := by
            rcases List.mem_cons.1 h3 with rfl | h3
            · exact lexLe_refl _
            · exact (List.pairwise_cons.1 hl.2).1 s h3
          rw [← h] at h5
          exact hab (lexLe_antisymm _ _ h4 h5)
      · rintro rfl; exact Or.inl rfl
    · have : s ≠ a := by rintro rfl; exact h rfl
      simp [h, this]

theorem dedup_strict {l : List α} (hl : l.Pairwise fun a b => lexLe (key a) (key b) = true) :
    (dedupByKey key l).Pairwise fun a b => lexLe (key a) (key b) = true ∧ key a ≠ key b := by
  have hsub : ∀ l : List α, ∀ s ∈ dedupByKey key l, s ∈ l := by
    intro l
    induction l using dedupByKey.induct (key := key) with
    | case1 => simp [dedupByKey]
    | case2 a => simp [dedupByKey]
    | case3 a b rest hab ih =>
      rw [dedupByKey, if_pos hab]
      intro s hs
      rcases List.mem_cons.1 (ih s hs) with rfl | h <;> simp [*]
    | case4 a b rest hab ih =>
      rw [dedupByKey, if_neg hab]
      intro s hs
      rcases List.mem_cons.1 hs with rfl | hs
      · simp
      · exact List.mem_cons_of_mem _ (ih s hs)
  induction l using dedupByKey.induct (key := key) with
  | case1 => simp [dedupByKey]
  | case2 a => simp [dedupByKey]
  | case3 a b rest hab ih =>
    rw [dedupByKey, if_pos hab]
    rw [List.pairwise_cons] at hl
    have hr := List.pairwise_cons.1 hl.2
    exact ih (List.pairwise_cons.2 ⟨fun x hx => hl.1 x (List.mem_cons_of_mem _ hx), hr.2⟩)
  | case4 a b rest hab ih =>
    rw [dedupByKey, if_neg hab]
    rw [List.pairwise_cons] at hl
    refine List.pairwise_cons.2 ⟨fun x hx => ?_, ih hl.2⟩
    have hx' := hsub _ x hx
    refine ⟨hl.1 x hx', fun h => hab ?_⟩
    refine lexLe_antisymm _ _ (hl.1 b List.mem_cons_self) ?_
    rw [h]
    rcases List.mem_cons.1 hx' with rfl | h3
    · exact lexLe_refl _
    · exact (List.pairwise_cons.1 hl.2).1 x h3

theorem fstMap_ok {es : List (List UInt8 × Nat)} (h : es.Pairwise fun a b => lexLe a.1 b.1 = true ∧ a.1 ≠ b.1) :
    fstMap es = some es := by
  have : fstMap.ok es = true := by
    induction es with
    | nil => rfl
    | cons a es ih =>
      cases es with
      | nil => rfl
      | cons b es =>
        rw [List.pairwise_cons] at h
        have h1 := h.1 b List.mem_cons_self
        simp [fstMap.ok, h1.1, h1.2, ih h.2]
  simp [fstMap, this]

theorem filter_sort {le : α → α → Bool} (ht : ∀ a b c, le a b = true → le b c = true → le a c = true)
    (hto : ∀ a b, (le a b || le b a) = true) (p : α → Bool) (l : List α)
    (hp : (l.filter p).Pairwise fun a b => le a b = true) : (l.mergeSort le).filter p = l.filter p := by
  have h1 : (l.filter p).Sublist (l.mergeSort le) := List.sublist_mergeSort ht hto hp List.filter_sublist
  have h2 := h1.filter p
  rw [List.filter_filter] at h2
  simp only [Bool.and_self] at h2
  refine (h2.eq_of_length ?_).symm
  exact (((List.mergeSort_perm l le).filter p).length_eq).symm

theorem first_iff {l : List Symbol} {p : Symbol → Bool} {s : Symbol} :
    l.find? p = some s ↔ p s = true ∧ ∃ a b, l = a ++ s :: b ∧ ∀ t ∈ a, p t = false := by
  rw [List.find?_eq_some_iff_append]
  simp

theorem bytesOf_inj {a b : List Char} (h : bytesOf a = bytesOf b) : a = b := by
  have h1 : a.utf8Encode = b.utf8Encode := congrArg List.toByteArray h
  have h2 := congrArg ByteArray.utf8Decode? h1
  rw [List.utf8Decode?_utf8Encode, List.utf8Decode?_utf8Encode] at h2
  simpa using h2

theorem mapM_zipIdx (p : List UInt8 → Bool) (pre l : List α) :
    (((l.map key).zipIdx pre.length).filter fun e => p e.1).mapM (fun e => (pre ++ l)[e.2]?) =
      some (l.filter fun a => p (key a)) := by
  induction l generalizing pre with
  | nil => simp
  | cons a l ih =>
    have h1 := ih (pre ++ [a])
    simp only [List.length_append, List.length_cons, List.length_nil, Nat.zero_add, List.append_assoc,
      List.cons_append, List.nil_append] at h1
    simp only [List.map_cons, List.zipIdx_cons, List.filter_cons]
    split
    · rw [List.mapM_cons, h1]
      simp
    · exact h1

/-- The symbols of a file, sorted and with one symbol for each name. -/
theorem new_eq (lowerStr : List Char → List Char) (found : List Symbol) :
    ∃ file, FileSymbols.new lowerStr found = some file ∧
      (∀ s, s ∈ file.symbols ↔ FirstNamed lowerStr found s) ∧
      file.map = (file.symbols.map fun s => bytesOf (lowerStr s.name)).zipIdx ∧
      file.symbols.Pairwise (fun a b => lexLe (bytesOf (lowerStr a.name)) (bytesOf (lowerStr b.name)) = true ∧
        lowerStr a.name ≠ lowerStr b.name) := by
  unfold FileSymbols.new
  simp only
  generalize hk : (fun s : Symbol => bytesOf (lowerStr s.name)) = key
  have hk' : ∀ s, bytesOf (lowerStr s.name) = key s := fun s => by rw [← hk]
  simp only [hk']
  have ht : ∀ a b c : Symbol, lexLe (key a) (key b) = true → lexLe (key b) (key c) = true →
      lexLe (key a) (key c) = true := fun a b c => lexLe_trans _ _ _
  have hto : ∀ a b : Symbol, (lexLe (key a) (key b) || lexLe (key b) (key a)) = true := fun a b => lexLe_total _ _
  have hs := List.pairwise_mergeSort (le := fun a b => lexLe (key a) (key b)) ht hto found
  have hstrict := dedup_strict hs
  have hkne : ∀ a b : Symbol, key a ≠ key b ↔ lowerStr a.name ≠ lowerStr b.name := by
    intro a b
    rw [← hk', ← hk']
    exact not_congr ⟨bytesOf_inj, fun h => by rw [h]⟩
  have hmap : fstMap (((dedupByKey key (found.mergeSort fun a b => lexLe (key a) (key b))).map key).zipIdx) =
      some (((dedupByKey key (found.mergeSort fun a b => lexLe (key a) (key b))).map key).zipIdx) := by
    apply fstMap_ok
    have h1 : (((dedupByKey key (found.mergeSort fun a b => lexLe (key a) (key b))).map key).zipIdx.map (·.1)).Pairwise
        fun a b => lexLe a b = true ∧ a ≠ b := by
      rw [List.zipIdx_map_fst, List.pairwise_map]
      exact hstrict
    rw [List.pairwise_map] at h1
    exact h1
  rw [hmap]
  refine ⟨_, rfl, fun s => ?_, rfl, hstrict.imp fun {a b} h => ⟨h.1, (hkne a b).1 h.2⟩⟩
  rw [dedup_mem hs]
  have hfil := filter_sort (le := fun a b => lexLe (key a) (key b)) ht hto (fun t => decide (key t = key s)) found
    (by
      refine List.Pairwise.imp_of_mem (R := fun _ _ => True) ?_ (List.pairwise_of_forall (fun _ _ => trivial))
      intro a b ha hb _
      have h1 := (List.mem_filter.1 ha).2
      have h2 := (List.mem_filter.1 hb).2
      simp only [decide_eq_true_eq] at h1 h2
      rw [h1, h2]
      exact lexLe_refl _)
  rw [← List.head?_filter, hfil, List.head?_filter, first_iff]
  simp only [decide_true, decide_eq_false_iff_not, true_and, FirstNamed, ← hkne, ne_eq]

theorem process_eq {lowerStr : List Char → List Char} {file : FileSymbols}
    (h : file.map = (file.symbols.map fun s => bytesOf (lowerStr s.name)).zipIdx) (q : SymQuery) :
    q.process file = some ((file.symbols.filter fun s =>
      (FstSubSeq.mk (bytesOf q.query)).isMatch ((bytesOf (lowerStr s.name)).foldl
        (FstSubSeq.mk (bytesOf q.query)).accept 0)).filter fun s => q.allSymbols || isTypeDef s.ty) := by
  have h1 := mapM_zipIdx (key := fun s : Symbol => bytesOf (lowerStr s.name)) (fun k =>
      (FstSubSeq.mk (bytesOf q.query)).isMatch (k.foldl (FstSubSeq.mk (bytesOf q.query)).accept 0)) [] file.symbols
  simp only [List.length_nil, List.nil_append] at h1
  unfold SymQuery.process
  simp only [FstSubSeq.start, h, h1, Option.bind_eq_bind, Option.bind_some]

theorem process_mem {lowerStr : List Char → List Char} {found : List Symbol} {file : FileSymbols}
    (h : FileSymbols.new lowerStr found = some file) (q : SymQuery) :
    ∃ rs, q.process file = some rs ∧ ∀ s, s ∈ rs ↔ FirstNamed lowerStr found s ∧
      (bytesOf q.query).Sublist (bytesOf (lowerStr s.name)) ∧ (q.allSymbols = true ∨ isTypeDef s.ty = true) := by
  obtain ⟨file', h1, h2, h3, -⟩ := new_eq lowerStr found
  rw [h] at h1
  obtain rfl := Option.some.inj h1
  refine ⟨_, process_eq h3 q, fun s => ?_⟩
  rw [List.mem_filter, List.mem_filter, FstSubSeq.run_iff _ _ _ (Nat.zero_le _), h2]
  simp [and_assoc]

/-- Files are searched in order until there are more than 512 symbols. -/
theorem processQuery_eq {q : SymQuery} {res : P × FileSymbols → List Symbol} (files : List (P × FileSymbols))
    (h : ∀ f ∈ files, q.process f.2 = some (res f)) (acc : List (P × Symbol)) :
    ∃ n, processQuery q files acc =
        some (acc ++ (files.take n).flatMap fun f => (res f).map fun s => (f.1, s)) ∧
      (n < files.length → 512 < (acc ++ (files.take n).flatMap fun f => (res f).map fun s => (f.1, s)).length) := by
  induction files generalizing acc with
  | nil => exact ⟨0, by simp [processQuery], by simp⟩
  | cons f files ih =>
    simp only [processQuery, h f List.mem_cons_self, Option.bind_eq_bind, Option.bind_some]
    split
    · rename_i hlen
      exact ⟨1, by simp, fun _ => by simpa using hlen⟩
    · obtain ⟨n, h1, h2⟩ := ih (fun g hg => h g (List.mem_cons_of_mem _ hg))
        (acc ++ (res f).map fun s => (f.1, s))
      refine ⟨n + 1, by rw [h1]; simp, fun hn => ?_⟩
      have := h2 (by simpa using hn)
      simpa using this

theorem utf8Encode_ascii {c : Char} (h : c.val.toNat ≤ 127) :
    String.utf8EncodeChar c = [UInt8.ofNat c.val.toNat] := by
  unfold String.utf8EncodeChar
  simp only [h, if_true]

theorem utf8Encode_high {c : Char} (h : ¬ c.val.toNat ≤ 127) (b : UInt8) (hb : b ∈ String.utf8EncodeChar c) :
    127 < b.toNat := by
  unfold String.utf8EncodeChar at hb
  simp only [h, if_false] at hb
  split at hb
  · simp only [List.mem_cons, List.not_mem_nil, or_false] at hb
    rcases hb with rfl | rfl <;> simp <;> omega
  · split at hb
    · simp only [List.mem_cons, List.not_mem_nil, or_false] at hb
      rcases hb with rfl | rfl | rfl <;> simp <;> omega
    · simp only [List.mem_cons, List.not_mem_nil, or_false] at hb
      rcases hb with rfl | rfl | rfl | rfl <;> simp <;> omega

theorem cons_sublist {a b : α} {l m : List α} (h : (a :: l).Sublist (b :: m)) : (a :: l).Sublist m ∨ a = b := by
  cases h with
  | cons _ h => exact Or.inl h
  | cons_cons => exact Or.inr rfl

/-- Bytes below 128 are only found in characters that are these bytes. -/
theorem sublist_ascii {q name : List Char} (hq : ∀ c ∈ q, c.val.toNat ≤ 127)
    (h : (bytesOf q).Sublist (bytesOf name)) : q.Sublist name := by
  induction name generalizing q with
  | nil =>
    cases q with
    | nil => exact .slnil
    | cons c q =>
      simp only [bytesOf, List.flatMap_cons, utf8Encode_ascii (hq c List.mem_cons_self)] at h
      cases h
  | cons d name ih =>
    cases q with
    | nil => simp
    | cons c q =>
      have hc := hq c List.mem_cons_self
      have hcons : bytesOf (c :: q) = UInt8.ofNat c.val.toNat :: bytesOf q := by
        simp [bytesOf, utf8Encode_ascii hc]
      by_cases hd : d.val.toNat ≤ 127
      · have hdcons : bytesOf (d :: name) = UInt8.ofNat d.val.toNat :: bytesOf name := by
          simp [bytesOf, utf8Encode_ascii hd]
        rw [hcons, hdcons] at h
        by_cases hcd : c = d
        · subst hcd
          exact List.cons_sublist_cons.2 (ih (fun x hx => hq x (List.mem_cons_of_mem _ hx))
            (List.cons_sublist_cons.1 h))
        · refine .cons _ (ih hq ?_)
          rw [hcons]
          rcases cons_sublist h with h | h
          · exact h
          · exfalso
            apply hcd
            have h2 := congrArg UInt8.toNat h
            rw [UInt8.toNat_ofNat', UInt8.toNat_ofNat', Nat.mod_eq_of_lt (by omega), Nat.mod_eq_of_lt (by omega)] at h2
            exact Char.ext (UInt32.toNat_inj.1 h2)
      · refine .cons _ (ih hq ?_)
        rw [hcons] at h ⊢
        have hdcons : bytesOf (d :: name) = String.utf8EncodeChar d ++ bytesOf name := by simp [bytesOf]
        rw [hdcons] at h
        have hall := utf8Encode_high hd
        generalize String.utf8EncodeChar d = ds at h hall
        induction ds with
        | nil => exact h
        | cons b ds ih2 =>
          refine ih2 ?_ (fun x hx => hall x (List.mem_cons_of_mem _ hx))
          have hb := hall b List.mem_cons_self
          rw [List.cons_append] at h
          rcases cons_sublist h with h | h
          · exact h
          · rw [← h, UInt8.toNat_ofNat', Nat.mod_eq_of_lt (by omega)] at hb
            omega

theorem sublist_bytes {q name : List Char} (h : q.Sublist name) : (bytesOf q).Sublist (bytesOf name) := by
  induction h with
  | slnil => exact .slnil
  | cons a _ ih =>
    simp only [bytesOf, List.flatMap_cons] at ih ⊢
    exact ih.trans (List.sublist_append_right _ _)
  | cons_cons a _ ih =>
    simp only [bytesOf, List.flatMap_cons] at ih ⊢
    exact List.Sublist.append (List.Sublist.refl _) ih

end Symbols

end Fall
