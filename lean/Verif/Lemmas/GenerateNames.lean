import Verif.Lemmas.GenerateTotal

/-! The names of the generated module. -/

namespace Fall

open Spec AProg

/-! ## Names -/

theorem plain_bytes {s : List UInt8} (h : PlainName s) : ∀ b ∈ s, SmallLetter b ∨ Digit b ∨ b = 95 := by
  obtain ⟨ws, hw, h⟩ := h
  have word : ∀ {w : List UInt8}, (∃ a rest, w = a :: rest ∧ SmallLetter a ∧ ∀ b ∈ rest, SmallLetter b ∨ Digit b) →
      ∀ b ∈ w, SmallLetter b ∨ Digit b ∨ b = 95 := by
    rintro w ⟨a, rest, rfl, h1, h2⟩ b hb
    rcases List.mem_cons.1 hb with rfl | hb
    · exact .inl h1
    · rcases h2 b hb with h | h
      · exact .inl h
      · exact .inr (.inl h)
  induction hw with
  | one _ => exact word (h _ (by simp))
  | more _ _ ih =>
    intro b hb
    rw [List.mem_append, List.mem_cons] at hb
    rcases hb with hb | rfl | hb
    · exact word (h _ (by simp)) b hb
    · exact .inr (.inr rfl)
    · exact ih (fun w hw => h w (by simp [hw])) b hb

theorem upper_small {b : UInt8} (h : SmallLetter b) : (upperByte b).toNat + 32 = b.toNat := by
  rcases capital_iff.2 (rfl : upperByte b = upperByte b) with ⟨-, -, h⟩ | ⟨h', -⟩
  · exact h.symm
  · exact absurd h h'

theorem upper_other {b : UInt8} (h : ¬ SmallLetter b) : upperByte b = b := by
  rcases capital_iff.2 (rfl : upperByte b = upperByte b) with ⟨h1, h2, -⟩ | ⟨-, h'⟩
  · exact absurd ⟨h1, h2⟩ h
  · exact h'

theorem upper_inj {a b : UInt8} (ha : SmallLetter a ∨ Digit a ∨ a = 95) (hb : SmallLetter b ∨ Digit b ∨ b = 95)
    (h : upperByte a = upperByte b) : a = b := by
  have num : ∀ {x : UInt8}, Digit x ∨ x = 95 → upperByte x = x ∧ (x.toNat ≤ 57 ∨ x.toNat = 95) := by
    rintro x (hx | rfl)
    · refine ⟨upper_other ?_, .inl hx.2⟩
      rintro ⟨h1, -⟩
      have := hx.2
      omega
    · exact ⟨by decide, .inr rfl⟩
  rw [← UInt8.toNat_inj]
  have e := congrArg UInt8.toNat h
  rcases ha with ha | ha <;> rcases hb with hb | hb
  · have h1 := upper_small ha
    have h2 := upper_small hb
    omega
  · have h1 := upper_small ha
    obtain ⟨h2, h3⟩ := num hb
    rw [h2] at e
    have := ha.1
    have := ha.2
    omega
  · have h1 := upper_small hb
    obtain ⟨h2, h3⟩ := num ha
    rw [h2] at e
    have := hb.1
    have := hb.2
    omega
  · rw [(num ha).1, (num hb).1] at h
    rw [h]

theorem scream_inj {s t : List UInt8} (hs : PlainName s) (ht : PlainName t) (h : scream s = scream t) : s = t := by
  replace hs := plain_bytes hs
  replace ht := plain_bytes ht
  induction s generalizing t with
  | nil =>
    cases t with
    | nil => rfl
    | cons b t => cases h
  | cons a s ih =>
    cases t with
    | nil => cases h
    | cons b t =>
      simp only [scream, List.map_cons, List.cons.injEq] at h
      rw [upper_inj (hs a (by simp)) (ht b (by simp)) h.1,
        ih (t := t) h.2 (fun x hx => hs x (by simp [hx])) fun x hx => ht x (by simp [hx])]

/-- The reverse of camel case, with an additional underscore at the beginning. -/
def uncamel (t : List UInt8) : List UInt8 := t.flatMap fun b => if 65 ≤ b.toNat ∧ b.toNat ≤ 90 then [95, b + 32] else [b]

theorem uncamel_word {w t : List UInt8}
    (h : ∃ a rest, w = a :: rest ∧ SmallLetter a ∧ ∀ b ∈ rest, SmallLetter b ∨ Digit b) (hc : Capitalized w t) :
    uncamel t = 95 :: w := by
  obtain ⟨a, rest, rfl, h1, h2⟩ := h
  obtain ⟨a', b, rest', e, -, h3, rfl⟩ := hc
  rw [List.cons.injEq] at e
  obtain ⟨rfl, rfl⟩ := e
  have h4 := upper_small h1
  rw [← capital_iff.1 h3] at h4
  have h5 := h1.1
  have h6 := h1.2
  have e : b + 32 = a := by
    rw [← UInt8.toNat_inj, UInt8.toNat_add]
    show (b.toNat + 32) % 256 = a.toNat
    omega
  simp only [uncamel, List.flatMap_cons]
  rw [if_pos (by omega), e]
  have : ∀ {r : List UInt8}, (∀ b ∈ r, SmallLetter b ∨ Digit b) →
      r.flatMap (fun b => if 65 ≤ b.toNat ∧ b.toNat ≤ 90 then [95, b + 32] else [b]) = r := by
    intro r hr
    induction r with
    | nil => rfl
    | cons x r ih =>
      rw [List.flatMap_cons, ih fun b hb => hr b (by simp [hb]), if_neg, List.singleton_append]
      rcases hr x (by simp) with h | h
      · have := h.1
        omega
      · have := h.2
        omega
  rw [this h2]
  rfl

theorem uncamel_camel {s t : List UInt8} (hs : PlainName s) (h : CamelCase s t) : uncamel t = 95 :: s := by
  obtain ⟨ws, hw, hp⟩ := hs
  obtain ⟨ws', ts, hw', hc, rfl⟩ := h
  obtain rfl : ws = ws' := (words_iff.1 hw).trans (words_iff.1 hw').symm
  clear hw'
  induction hw generalizing ts with
  | one _ =>
    cases hc with
    | cons h1 h2 =>
      cases h2
      simpa using uncamel_word (hp _ (by simp)) h1
  | more _ _ ih =>
    cases hc with
    | cons h1 h2 =>
      have e1 := uncamel_word (hp _ (by simp)) h1
      have e2 := ih (fun w hw => hp w (by simp [hw])) _ h2
      rw [List.flatten_cons, uncamel, List.flatMap_append]
      rw [uncamel] at e1 e2
      rw [e1, e2]
      rfl

theorem camel_inj {s s' t : List UInt8} (hs : PlainName s) (hs' : PlainName s') (h : CamelCase s t)
    (h' : CamelCase s' t) : s = s' := by
  have := (uncamel_camel hs h).symm.trans (uncamel_camel hs' h')
  simpa using this

/-! ## Constants -/

/-- The filter of the template gives capital letters for usual names. -/
def UpperOn (upper : List UInt8 → List UInt8) : Prop := ∀ s, PlainName s → Screaming s (upper s)

section
variable {upper : List UInt8 → List UInt8} (hu : UpperOn upper)
include hu

theorem upper_eq {s : List UInt8} (hs : PlainName s) : upper s = scream s := screaming_iff.1 (hu s hs)

theorem constants_lookup {types : List (List UInt8 × Bool)} (hp : ∀ t ∈ types, PlainName t.1) {s : List UInt8}
    (hs : PlainName s) (i : Nat) :
    ((types.zipIdx i).map fun t => (upper t.1.1, 100 + t.2)).lookup (scream s) =
      (types.findIdx? (·.1 == s)).map (100 + i + ·) := by
  induction types generalizing i with
  | nil => rfl
  | cons t types ih =>
    rw [List.zipIdx_cons, List.map_cons, List.lookup_cons, List.findIdx?_cons, upper_eq hu (hp t (by simp))]
    by_cases e : t.1 = s
    · simp [e]
    · have e' : ¬ scream s = scream t.1 := fun h => e (scream_inj hs (hp t (by simp)) h).symm
      rw [ih (fun t ht => hp t (by simp [ht])), beq_false_of_ne e', beq_false_of_ne e]
      simp only [Bool.false_eq_true, if_false, Option.map_map]
      congr 1
      funext x
      simp only [Function.comp_apply]
      omega

theorem const_eq {g : GenFile} (hp : ∀ t ∈ g.types, PlainName t.1) {s : List UInt8} (hs : PlainName s) :
    g.const upper (scream s) = (typeNumber g.types s).map (99 + ·) := by
  rw [GenFile.const, GenFile.constants, constants_lookup hu hp hs, typeNumber, Option.map_map]
  congr 1
  funext x
  simp only [Function.comp_apply]
  omega

omit hu in
theorem nodup_map {α β : Type} {R : α → β → Prop} {xs : List α} {ys : List β} (h : Pointwise R xs ys)
    (hi : ∀ x ∈ xs, ∀ x' ∈ xs, ∀ y y', R x y → R x' y' → (x = x' ↔ y = y')) : xs.Nodup ↔ ys.Nodup := by
  induction h with
  | nil => simp
  | @cons x y xs ys h hs ih =>
    rw [List.nodup_cons, List.nodup_cons, ih fun x hx x' hx' => hi x (by simp [hx]) x' (by simp [hx'])]
    refine and_congr_left fun _ => not_congr ⟨fun hm => ?_, fun hm => ?_⟩
    · obtain ⟨y', hy, hr⟩ := pointwise_mem hs hm
      rw [(hi x (by simp) x (by simp [hm]) y y' h hr).1 rfl]
      exact hy
    · obtain ⟨x', hx, hr⟩ := hs.mem hm
      rw [(hi x (by simp) x' (by simp [hx]) y y h hr).2 rfl]
      exact hx

end

end Fall
