import Verif.Lemmas.Syn
import Verif.Spec.Static

/-!
Running parts of the parser with conditions on all three outcomes.
-/

namespace Fall

open Spec

/-- If `m` succeeds in state `s`, its result satisfies `Q`; `pan` and `tim` say whether a panic or
a lack of budget is possible. -/
def Wp (pan tim : Prop) (m : P β) (s : PState) (Q : β → PState → Prop) : Prop :=
  match m s with
  | .ok x s' => Q x s'
  | .panic => pan
  | .timeout => tim

namespace Wp

variable {pan tim : Prop} {s : PState}

theorem bind {m : P β} {f : β → P γ} {Q : γ → PState → Prop}
    (h : Wp pan tim m s fun x s' => Wp pan tim (f x) s' Q) : Wp pan tim (m >>= f) s Q := by
  show Wp pan tim (P.bind m f) s Q
  unfold Wp P.bind at *
  cases hm : m s <;> simp_all

theorem mono {m : P β} {Q R : β → PState → Prop} (h : Wp pan tim m s Q) (hQ : ∀ x s', Q x s' → R x s') :
    Wp pan tim m s R := by
  unfold Wp at *
  cases hm : m s with
  | ok x s' => rw [hm] at h; exact hQ x s' h
  | panic => rw [hm] at h; exact h
  | timeout => rw [hm] at h; exact h

/-- `bind` with a condition in between. -/
theorem seq {m : P β} {f : β → P γ} {R : β → PState → Prop} {Q : γ → PState → Prop}
    (h : Wp pan tim m s R) (hf : ∀ x s', R x s' → Wp pan tim (f x) s' Q) : Wp pan tim (m >>= f) s Q :=
  bind (h.mono hf)

theorem pure {x : β} {Q : β → PState → Prop} (h : Q x s) : Wp pan tim (Pure.pure x : P β) s Q := h

theorem panic {Q : β → PState → Prop} (h : pan) : Wp pan tim (P.panic : P β) s Q := h

theorem timeout {Q : β → PState → Prop} (h : tim) : Wp pan tim (P.timeout : P β) s Q := h

theorem get {Q : PState → PState → Prop} (h : Q s s) : Wp pan tim P.get s Q := h

theorem modify {f : PState → PState} {Q : Unit → PState → Prop} (h : Q () (f s)) :
    Wp pan tim (P.modify f) s Q := h

theorem lift {o : Option β} {Q : β → PState → Prop} (h1 : o = none → pan) (h2 : ∀ x, o = some x → Q x s) :
    Wp pan tim (P.lift o) s Q := by
  cases o with
  | none => exact h1 rfl
  | some x => exact h2 x rfl

theorem cond {c : Bool} {m : P Unit} {Q : Unit → PState → Prop} (h1 : c = true → Wp pan tim m s Q)
    (h2 : c = false → Q () s) : Wp pan tim (P.cond c m) s Q := by
  unfold P.cond
  cases c with
  | true => exact h1 rfl
  | false => exact h2 rfl

theorem of_ok {m : P β} {Q : β → PState → Prop} (h : ∀ x s', m s = .ok x s' → Q x s') : Wp True True m s Q := by
  unfold Wp
  cases hm : m s with
  | ok x s' => exact h x s' hm
  | panic => trivial
  | timeout => trivial

theorem ok {m : P β} {Q : β → PState → Prop} (h : Wp pan tim m s Q) {x : β} {s' : PState}
    (hm : m s = .ok x s') : Q x s' := by
  unfold Wp at h
  rw [hm] at h
  exact h

theorem and {m : P β} {Q R : β → PState → Prop} (h1 : Wp pan tim m s Q) (h2 : ∀ x s', m s = .ok x s' → R x s') :
    Wp pan tim m s fun x s' => Q x s' ∧ R x s' := by
  unfold Wp at *
  cases hm : m s with
  | ok x s' => rw [hm] at h1; exact ⟨h1, h2 x s' hm⟩
  | panic => rw [hm] at h1; exact h1
  | timeout => rw [hm] at h1; exact h1

end Wp

end Fall
