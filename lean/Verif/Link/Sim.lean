import Verif.Link.Basic
/-!
`g` does what `m` does from a state, unless `m` runs out of its loop counter.  The hand-written
model cuts a walk off after as many steps as there are cells (a longer walk repeats a cell); the
generated code after `fuel` steps.
-/
namespace Verif.Link
variable {σ α β γ δ : Type}

theorem assoc (m : JM σ α) (f : α → JM σ β) (g : β → JM σ γ) :
    (m >>= f) >>= g = m >>= fun a => f a >>= g := by
  apply JM_ext; intro s
  rw [JM.bind_apply, JM.bind_apply, JM.bind_apply]
  cases m s <;> rfl

/-- From `s`, `g` returns (a value related by `R`), or throws, as `m` does, and leaves the same
state; or `m` does not end. -/
def Sim (R : α → β → Prop) (m : JM σ α) (g : JM σ β) (s : σ) : Prop :=
  match m s with
  | .ok a t => ∃ b, g s = .ok b t ∧ R a b
  | .err e t => e = .diverge ∨ g s = .err e t

namespace Sim
variable {R : α → β → Prop} {Q : γ → δ → Prop} {m : JM σ α} {g : JM σ β} {s : σ}

theorem of_eq {m g : JM σ α} (h : g s = m s) : Sim Eq m g s := by
  unfold Sim; cases hm : m s with
  | ok a t => exact ⟨a, h.trans hm, rfl⟩
  | err e t => exact .inr (h.trans hm)

theorem rfl {m : JM σ α} : Sim Eq m m s := of_eq _root_.rfl

theorem pure {a : α} {b : β} (h : R a b) : Sim R (Pure.pure a : JM σ α) (Pure.pure b) s :=
  ⟨b, _root_.rfl, h⟩

theorem throw {e : Err} : Sim R (JM.throw e : JM σ α) (JM.throw e) s := .inr _root_.rfl

theorem diverge : Sim R (JM.throw .diverge : JM σ α) g s := .inl _root_.rfl

theorem bind {f : α → JM σ γ} {h : β → JM σ δ} (h1 : Sim R m g s)
    (h2 : ∀ a b t, m s = .ok a t → R a b → Sim Q (f a) (h b) t) : Sim Q (m >>= f) (g >>= h) s := by
  unfold Sim at h1
  cases hm : m s with
  | ok a t =>
    rw [hm] at h1
    obtain ⟨b, hb, hr⟩ := h1
    have := h2 a b t hm hr
    unfold Sim
    rw [JM.bind_ok hm, JM.bind_ok hb]
    exact this
  | err e t =>
    rw [hm] at h1
    unfold Sim
    rw [JM.bind_err hm]
    rcases h1 with h1 | h1
    · exact .inl h1
    · rw [JM.bind_err h1]; exact .inr _root_.rfl

/-- more steps of the generated code at the end -/
theorem tailR {Q : α → δ → Prop} {h : β → JM σ δ} (h1 : Sim R m g s)
    (h2 : ∀ a b t, m s = .ok a t → R a b → Sim Q (Pure.pure a) (h b) t) : Sim Q m (g >>= h) s := by
  have e : m = m >>= Pure.pure := by
    apply JM_ext; intro s
    rw [JM.bind_apply]; cases m s <;> rfl
  rw [e]
  exact bind h1 h2

/-- more steps of the model at the end -/
theorem tailL {Q : γ → β → Prop} {f : α → JM σ γ} (h1 : Sim R m g s)
    (h2 : ∀ a b t, m s = .ok a t → R a b → Sim Q (f a) (Pure.pure b) t) : Sim Q (m >>= f) g s := by
  have e : g = g >>= Pure.pure := by
    apply JM_ext; intro s
    rw [JM.bind_apply]; cases g s <;> rfl
  rw [e]
  exact bind h1 h2

theorem bind_eq {m g : JM σ α} {f : α → JM σ γ} {h : α → JM σ δ} (h1 : Sim Eq m g s)
    (h2 : ∀ a t, m s = .ok a t → Sim Q (f a) (h a) t) : Sim Q (m >>= f) (g >>= h) s :=
  bind h1 fun a b t hm hr => hr ▸ h2 a t hm

/-- the same first step -/
theorem step {m : JM σ α} {f : α → JM σ γ} {h : α → JM σ δ}
    (h2 : ∀ a t, m s = .ok a t → Sim Q (f a) (h a) t) : Sim Q (m >>= f) (m >>= h) s :=
  bind_eq rfl h2

theorem get {f : σ → JM σ γ} {h : σ → JM σ δ} (h2 : Sim Q (f s) (h s) s) :
    Sim Q (MonadState.get >>= f) (MonadState.get >>= h) s := h2

/-- the same first step, which does not look at the object -/
theorem stepL {m : JM σ α} {f : α → JM σ γ} {h : α → JM σ δ} (hm : ∃ r, ∀ s, m s = ofExcept r s)
    (h2 : ∀ a, m s = .ok a s → Sim Q (f a) (h a) s) : Sim Q (m >>= f) (m >>= h) s := by
  obtain ⟨r, hr⟩ := hm
  refine step fun a t ht => ?_
  have hr' := hr s
  cases r with
  | error e => rw [ht] at hr'; cases hr'
  | ok b =>
    rw [ht] at hr'
    injection hr' with h3 h4
    subst h4
    exact h2 a ht

/-- the same first step, which leaves the object alone -/
theorem stepS {m : JM σ α} {f : α → JM σ γ} {h : α → JM σ δ} (hm : (m s).state = s)
    (h2 : ∀ a, m s = .ok a s → Sim Q (f a) (h a) s) : Sim Q (m >>= f) (m >>= h) s := by
  refine step fun a t ht => ?_
  rw [ht] at hm
  obtain rfl : t = s := hm
  exact h2 a ht

theorem modify {u v : σ → σ} {f : Unit → JM σ γ} {h : Unit → JM σ δ} (huv : v s = u s)
    (h2 : Sim Q (f ()) (h ()) (u s)) :
    Sim Q ((_root_.modify u : JM σ PUnit) >>= f) ((_root_.modify v : JM σ PUnit) >>= h) s := by
  unfold Sim at h2 ⊢
  rw [JM.bind_ok (JM.modify_apply u s), JM.bind_ok (JM.modify_apply v s), huv]
  exact h2

/-- a step of the model alone -/
theorem left {m : JM σ α} {f : α → JM σ γ} {g : JM σ δ} {a : α} (hm : m s = .ok a s)
    (h : Sim Q (f a) g s) : Sim Q (m >>= f) g s := by
  unfold Sim; rw [JM.bind_ok hm]; exact h

/-- a step of the generated code alone -/
theorem right {m : JM σ γ} {g : JM σ β} {h : β → JM σ δ} {b : β} (hg : g s = .ok b s)
    (hh : Sim Q m (h b) s) : Sim Q m (g >>= h) s := by
  unfold Sim at hh ⊢; rw [JM.bind_ok hg]; exact hh

theorem ite {c d : Prop} [Decidable c] [Decidable d] {m n : JM σ α} {g k : JM σ β} (hcd : c ↔ d)
    (h1 : c → Sim R m g s) (h2 : ¬ c → Sim R n k s) : Sim R (if c then m else n) (if d then g else k) s := by
  by_cases hc : c
  · rw [if_pos hc, if_pos (hcd.1 hc)]; exact h1 hc
  · rw [if_neg hc, if_neg (fun h => hc (hcd.2 h))]; exact h2 hc

theorem mono {R' : α → β → Prop} (h : Sim R m g s) (hr : ∀ a b, R a b → R' a b) : Sim R' m g s := by
  unfold Sim at h ⊢
  cases hm : m s with
  | ok a t => rw [hm] at h; obtain ⟨b, hb, hr'⟩ := h; exact ⟨b, hb, hr a b hr'⟩
  | err e t => rw [hm] at h; exact h

/-- `pure ()` at the end -/
theorem unit_right {m g : JM σ Unit} (h : Sim Eq m g s) : Sim Eq m (g >>= fun _ => Pure.pure ()) s := by
  rw [bind_unit]; exact h

theorem toEq {m g : JM σ α} (h : Sim Eq m g s) (hd : (m s).out ≠ .error .diverge) : g s = m s := by
  unfold Sim at h
  cases hm : m s with
  | ok a t => rw [hm] at h; obtain ⟨b, hb, rfl⟩ := h; exact hb
  | err e t =>
    rw [hm] at h hd
    rcases h with h | h
    · subst h; exact absurd _root_.rfl hd
    · exact h

end Sim
end Verif.Link
