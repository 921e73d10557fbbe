import Verif.Spec.Cursor
import Verif.Proofs.Iterator
/-! The iterator refines the ideal cursor. -/
set_option linter.unusedSectionVars false
namespace Verif
namespace Iterating
open Index IndexSpec
variable {K V : Type} [Inhabited K] [Inhabited V]
variable {tight : Prop}

/-- The relation between an iterator and the ideal cursor; `b` bounds the calls of `next` at the end. -/
def CInv (tight : Prop) (b : Int) (s : Iterating K V) (c : Cursor K V) : Prop :=
  (∃ F, Inv tight s.map c.map F) ∧
  match c.pos with
  | .start => Start s ∧ c.todo = order s.map
  | .at e => ∃ l1 l2 n t, Mid s l1 l2 n t ∧ s.it.isRemoved = false ∧ s.it.entry = e ∧
      c.todo = rest s l2 n
  | .removed e => ∃ l1 l2 n t, Mid s l1 l2 n t ∧ s.it.isRemoved = true ∧ s.it.entry = e ∧
      c.todo = rest s l2 n
  | .done => Done b s ∧ c.todo = []

theorem itStep_next_true {s s' : Iterating K V} (h : next s = .ok true s') :
    itStep .next s = .ok (some s'.it.entry) s' := by
  unfold itStep
  rw [JM.bind_ok h]; rfl

theorem itStep_next_false {s s' : Iterating K V} (h : next s = .ok false s') :
    itStep .next s = .ok none s' := by
  unfold itStep
  rw [JM.bind_ok h]; rfl

theorem initIter_of_next {s s' : Iterating K V} {b : Bool} (hs : Start s) (h : next s = .ok b s') :
    initIter s = .ok () s' := by
  unfold next at h
  rw [JM.bind_ok (JM.get_apply _), if_neg (by simp [hs.mod]), if_pos hs.init, JM.bind_apply] at h
  split at h
  · rename_i heq
    rw [JM.bind_ok (JM.get_apply _)] at h
    simp at h
    rw [heq, h.2]
  · simp at h

theorem unlinkCurrent_done {s : Iterating K V} (h : s.it.entry < 0) :
    unlinkCurrent s = .err .indexOutOfBounds s := by
  unfold unlinkCurrent
  rw [JM.bind_ok (JM.get_apply _)]
  simp only
  apply JM.bind_err
  unfold onMap rd
  simp only
  rw [if_neg (by omega)]

/-- What `next` does, in terms of the entries to come; it never touches the map. -/
theorem Done.mono {s : Iterating K V} {b b' : Int} (h : Done b s) (hb : b ≤ b') : Done b' s :=
  ⟨h.init, h.mod, h.head, by have := h.bound; omega, h.next, h.entry, h.removed⟩

theorem next_cases {b : Int} (h0 : 0 ≤ b) (hb : b ≤ 1073741824) {s : Iterating K V} {c : Cursor K V}
    (h : CInv tight b s c) :
    (c.todo = [] ∧ ∃ it', next s = .ok false ⟨s.map, it'⟩ ∧ Done (b + 1) ⟨s.map, it'⟩) ∨
    (∃ it' l1 l2 n t, next s = .ok true ⟨s.map, it'⟩ ∧ Mid ⟨s.map, it'⟩ l1 l2 n t ∧
      it'.isRemoved = false ∧ c.todo = it'.entry :: rest ⟨s.map, it'⟩ l2 n) := by
  obtain ⟨⟨F, hF⟩, hp⟩ := h
  cases c with | mk pos todo a =>
  simp only at hF hp ⊢
  cases pos with
  | start =>
    obtain ⟨h1, h2⟩ := hp
    rcases next_start hF h1 with ⟨h3, h4⟩ | ⟨it', l2, n, t, h3⟩
    · obtain ⟨it', g1, g2⟩ := h4
      exact .inl ⟨by rw [h2, h3], it', g1, g2.mono (by omega)⟩
    · exact .inr ⟨it', [], l2, n, t, by rw [h2]; exact h3⟩
  | «at» e =>
    obtain ⟨l1, l2, n, t, h1, _, _, h4⟩ := hp
    rcases next_mid hF h1 with ⟨h5, h6⟩ | ⟨it', l1', l2', n', t', h5⟩
    · obtain ⟨it', g1, g2⟩ := h6
      exact .inl ⟨by rw [h4, h5], it', g1, g2.mono (by omega)⟩
    · exact .inr ⟨it', l1', l2', n', t', by rw [h4]; exact h5⟩
  | removed e =>
    obtain ⟨l1, l2, n, t, h1, _, _, h4⟩ := hp
    rcases next_mid hF h1 with ⟨h5, h6⟩ | ⟨it', l1', l2', n', t', h5⟩
    · obtain ⟨it', g1, g2⟩ := h6
      exact .inl ⟨by rw [h4, h5], it', g1, g2.mono (by omega)⟩
    · exact .inr ⟨it', l1', l2', n', t', by rw [h4]; exact h5⟩
  | done =>
    obtain ⟨h1, h2⟩ := hp
    exact .inl ⟨h2, next_done hF hb h1⟩

theorem cursor_step {b : Int} (h0 : 0 ≤ b) (hb : b ≤ 1073741824) (s : Iterating K V) (c : Cursor K V)
    (o : ItOp) (h : CInv tight b s c) :
    (itStep o s).out = (Cursor.step o c).1 ∧ CInv tight (b + 1) (itStep o s).state (Cursor.step o c).2 := by
  obtain ⟨⟨F, hF⟩, hp⟩ := h
  cases c with | mk pos todo a =>
  simp only at hF hp
  cases o with
  | next =>
    rcases next_cases h0 hb (c := ⟨pos, todo, a⟩) ⟨⟨F, hF⟩, hp⟩ with ⟨hnil, it', h1, h2⟩ | ⟨it', l1, l2, n, t, h1, h2, h3, hcons⟩
    · simp only at hnil; subst hnil
      rw [itStep_next_false h1]
      exact ⟨rfl, ⟨F, hF⟩, h2, rfl⟩
    · simp only at hcons; subst hcons
      rw [itStep_next_true h1]
      exact ⟨rfl, ⟨F, hF⟩, l1, l2, n, t, h2, h3, rfl, rfl⟩
  | remove =>
    cases pos with
    | start =>
      obtain ⟨h1, h2⟩ := hp
      rcases next_start hF h1 with ⟨h3, it', h4, h5⟩ | ⟨it', l2, n, t, h3, h4, h5, h6⟩
      · rw [h3] at h2
        subst h2
        have hr : itStep .remove s = .err .indexOutOfBounds ⟨s.map, it'⟩ := by
          unfold itStep
          apply JM.bind_err
          unfold remove
          rw [JM.bind_ok (JM.get_apply _), if_neg (by simp [h1.mod]), if_neg (by simp [h1.removed]),
            JM.when_pos h1.init, JM.bind_ok (initIter_of_next h1 h4)]
          exact unlinkCurrent_done h5.entry
        rw [hr]
        exact ⟨rfl, ⟨F, hF⟩, h5.mono (by omega), rfl⟩
      · rw [h6] at h2
        subst h2
        obtain ⟨s', g1, g2, g3, g4, g5, g6, g7⟩ := unlinkCurrent_mid (s := ⟨s.map, it'⟩) hF h4 h5
        have hr : itStep .remove s = .ok none s' := by
          unfold itStep
          refine JM.bind_ok (a := ()) (s' := s') ?_
          unfold remove
          rw [JM.bind_ok (JM.get_apply _), if_neg (by simp [h1.mod]), if_neg (by simp [h1.removed]),
            JM.when_pos h1.init, JM.bind_ok (initIter_of_next h1 h3)]
          exact g1
        rw [hr]
        exact ⟨rfl, ⟨_, g2⟩, [], l2, n, t, g3, g6, g7, g4.symm⟩
    | «at» e =>
      obtain ⟨l1, l2, n, t, h1, h2, h3, h4⟩ := hp
      obtain ⟨s', g1, g2, g3, g4, g5, g6, hent⟩ := remove_mid hF h1 h2
      have hr : itStep .remove s = .ok none s' := by
        unfold itStep; rw [JM.bind_ok g1]; rfl
      rw [hr]
      rw [h3] at g2
      exact ⟨rfl, ⟨_, g2⟩, l1, l2, n, t, g3, g6, hent.trans h3, h4.trans g4.symm⟩
    | removed e =>
      obtain ⟨l1, l2, n, t, h1, h2, h3, h4⟩ := hp
      have hr : itStep .remove s = .err .illegalState s := by
        unfold itStep
        apply JM.bind_err
        unfold remove
        rw [JM.bind_ok (JM.get_apply _), if_neg (by simp [h1.mod]), if_pos h2]; rfl
      rw [hr]
      exact ⟨rfl, ⟨F, hF⟩, l1, l2, n, t, h1, h2, h3, h4⟩
    | done =>
      obtain ⟨h1, h2⟩ := hp
      have hr : itStep .remove s = .err .indexOutOfBounds s := by
        unfold itStep
        apply JM.bind_err
        unfold remove
        rw [JM.bind_ok (JM.get_apply _), if_neg (by simp [h1.mod]), if_neg (by simp [h1.removed]),
          JM.when_neg (by simp [h1.init]), JM.bind_ok (JM.pure_apply _ _)]
        exact unlinkCurrent_done h1.entry
      rw [hr]
      exact ⟨rfl, ⟨F, hF⟩, h1.mono (by omega), h2⟩

/-- A fresh iterator stands at the start. -/
theorem cinv_reset {m : Index K V} {a : Abs K V} {F : List Int} (h : Inv tight m a F) (it : Iter) :
    ∃ it', reset (⟨m, it⟩ : Iterating K V) = .ok () ⟨m, it'⟩ ∧ CInv tight 0 ⟨m, it'⟩ ⟨.start, order m, a⟩ := by
  obtain ⟨it', h1, h2⟩ := reset_start (K := K) (V := V) ⟨m, it⟩
  exact ⟨it', h1, ⟨F, h⟩, h2, rfl⟩

/-- Every sequence of iterator calls. -/
theorem cursor_run : ∀ (ops : List ItOp) (b : Int) (s : Iterating K V) (c : Cursor K V), CInv tight b s c →
    0 ≤ b → b + ops.length ≤ 1073741824 →
    (runM itStep s ops).1 = (runS Cursor.step c ops).1 ∧
      CInv tight (b + ops.length) (runM itStep s ops).2 (runS Cursor.step c ops).2
  | [], b, s, c, h, _, _ => ⟨rfl, by simpa [runM, runS] using h⟩
  | o :: os, b, s, c, h, h0, hb => by
    simp only [List.length_cons] at hb
    obtain ⟨h1, h2⟩ := cursor_step h0 (by omega) s c o h
    obtain ⟨h3, h4⟩ := cursor_run os (b + 1) _ _ h2 (by omega) (by omega)
    simp only [runM, runS]
    refine ⟨by rw [h1, h3], ?_⟩
    rw [show b + ((o :: os).length : Nat) = b + 1 + os.length by simp only [List.length_cons]; omega]
    exact h4

/-- The iterator and the map agree on the modification count. -/
theorem CInv.mod {b : Int} {s : Iterating K V} {c : Cursor K V} (h : CInv tight b s c) :
    s.it.internalModCount = s.map.modificationCount := by
  obtain ⟨_, hp⟩ := h
  cases c with | mk pos todo a =>
  cases pos with
  | start => exact hp.1.mod
  | «at» e => obtain ⟨_, _, _, _, h, _⟩ := hp; exact h.mod
  | removed e => obtain ⟨_, _, _, _, h, _⟩ := hp; exact h.mod
  | done => exact hp.1.mod

end Iterating
end Verif
