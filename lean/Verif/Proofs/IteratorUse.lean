import Verif.Spec.IteratorUse
import Verif.Proofs.CallbacksIndex
import Verif.Proofs.ModCount
import Verif.Proofs.Cursor
set_option linter.unusedSectionVars false
/-! Proof that an iterator works until the number of entries changes behind its back. -/
namespace Verif.Iterating
open Verif.Index Verif.IndexSpec
variable {K V : Type} [Inhabited K] [Inhabited V]
variable {tight : Prop}

/-- Nothing the iterator looks at changed. -/
def Still (s s' : Index K V) (a : Abs K V) : Prop :=
  ∃ D, Pres s s' D ∧ (∀ d ∈ D, 0 ≤ d) ∧ (∀ d ∈ D, d ∉ a.live) ∧ s'.modificationCount = s.modificationCount

theorem still_refl (s : Index K V) (a : Abs K V) : Still s s a := ⟨[], Pres.refl _ _, by simp, by simp, rfl⟩

theorem drop_length {a : Abs K V} {e : Int} (he : e ∈ a.live) : (a.drop e).rows.length < a.rows.length := by
  obtain ⟨r, hr, rfl⟩ := List.mem_map.1 he
  simp only [Abs.drop]
  apply List.length_filter_lt_length_iff_exists.2
  exact ⟨r, hr, by simp⟩

theorem step_still {s : Index K V} {a : Abs K V} {F : List Int} (h : Inv tight s a F) (o : Op K V)
    (hg : Guard o a) (hc : o ≠ .clear)
    (hl : (after o (step o s).out a).rows.length = a.rows.length) : Still s (step o s).state a := by
  have conv : Tame [] o a → Still s (step o s).state a := by
    intro ht
    obtain ⟨D, h1, h2, h3, -, h5, -⟩ := step_quiet h o hg ht
    refine ⟨D, h1, h2, fun d hd => ?_, h5 rfl⟩
    rcases h3 d hd with h | h
    · simp at h
    · exact h
  have hok := (step_spec h o hg).1
  cases o with
  | add k =>
    apply conv
    show (a.find k).isSome = true
    cases hf : a.find k with
    | some r => rfl
    | none =>
      simp only [Ok, hf] at hok
      obtain ⟨e, he, -⟩ := hok
      simp only [after, hf, he, Abs.insert, List.length_cons] at hl
      omega
  | put k v =>
    apply conv
    show (a.find k).isSome = true
    cases hf : a.find k with
    | some r => rfl
    | none =>
      simp only [Ok, hf] at hok
      obtain ⟨e, he, -⟩ := hok
      simp only [after, hf, he, Abs.insert, List.length_cons] at hl
      omega
  | remove k =>
    apply conv
    intro r hf
    simp only [after, hf] at hl
    have := drop_length (a := a) (List.mem_map_of_mem (f := (·.entry)) (find_some hf).1)
    omega
  | removeAt e =>
    apply conv
    intro he
    simp only [after, if_pos he] at hl
    have := drop_length (a := a) he
    omega
  | removeAtAndReserve e =>
    obtain ⟨r, hr, rfl, -⟩ := hg
    simp only [after] at hl
    have := drop_length (a := a) (List.mem_map_of_mem (f := (·.entry)) hr)
    omega
  | clear => exact absurd rfl hc
  | setHashMethod f =>
    by_cases hs : s.size > 0
    · have hr : step (.setHashMethod f) s = .err .illegalState s := by
        simp only [step, setHashMethod]
        apply JM.bind_err
        rw [JM.bind_ok (JM.get_apply _), if_pos hs]; rfl
      rw [hr]; exact still_refl _ _
    · have hr : step (.setHashMethod f) s = .ok .unit { s with hashFunc := f } := by
        simp only [step, setHashMethod]
        refine JM.bind_ok (a := ()) (s' := { s with hashFunc := f }) ?_
        rw [JM.bind_ok (JM.get_apply _), if_neg hs]; rfl
      rw [hr]; exact ⟨[], ⟨rfl, rfl, fun _ _ => rfl, fun _ _ _ => rfl⟩, by simp, by simp, rfl⟩
  | setEqMethod f =>
    by_cases hs : s.size > 0
    · have hr : step (.setEqMethod f) s = .err .illegalState s := by
        simp only [step, setEqMethod]
        apply JM.bind_err
        rw [JM.bind_ok (JM.get_apply _), if_pos hs]; rfl
      rw [hr]; exact still_refl _ _
    · have hr : step (.setEqMethod f) s = .ok .unit { s with equalFunc := f } := by
        simp only [step, setEqMethod]
        refine JM.bind_ok (a := ()) (s' := { s with equalFunc := f }) ?_
        rw [JM.bind_ok (JM.get_apply _), if_neg hs]; rfl
      rw [hr]; exact ⟨[], ⟨rfl, rfl, fun _ _ => rfl, fun _ _ _ => rfl⟩, by simp, by simp, rfl⟩
  | _ => exact conv trivial

theorem mid_live {s : Iterating K V} {a : Abs K V} {F : List Int} (h : Inv tight s.map a F)
    {l1 l2 : List Int} {n : Nat} {t : Int} (hs : Mid s l1 l2 n t) :
    ∀ x ∈ l1 ++ (if s.it.isRemoved then l2 else s.it.entry :: l2), x ∈ a.live := by
  obtain ⟨l, t', hp', ht', hm⟩ := h.chained s.it.head hs.head0 (by have := hs.headn; omega)
  obtain ⟨hl, rfl⟩ := hs.chain.unique hp'
  intro x hx
  rw [hl] at hx
  exact ((hm x).1 hx).1

theorem mid_still {s : Iterating K V} {s' : Index K V} {a : Abs K V} {F : List Int} (h : Inv tight s.map a F)
    (hst : Still s.map s' a) {l1 l2 : List Int} {n : Nat} {t : Int} (hs : Mid s l1 l2 n t) :
    Mid ⟨s', s.it⟩ l1 l2 n t ∧ rest ⟨s', s.it⟩ l2 n = rest s l2 n := by
  obtain ⟨D, p1, p2, p3, p4⟩ := hst
  have hlive := mid_live h hs
  have hl2 : ∀ x ∈ l2, x ∈ a.live := by
    intro x hx
    apply hlive
    split
    · exact List.mem_append_right _ hx
    · exact List.mem_append_right _ (List.mem_cons_of_mem _ hx)
  have q1 := hs.head0; have q2 := hs.headn
  have hheads : s'.heads.get s.it.head = s.map.heads.get s.it.head := by
    apply p1.2.2.1
    intro hd
    have h0 := p2 _ hd
    obtain ⟨l', hl', _⟩ := hs.chain.nonneg_cons h0
    exact p3 _ hd (hlive _ (by rw [hl']; simp))
  constructor
  · refine ⟨hs.init, hs.mod.trans p4.symm, hs.head0, ?_, hs.prev, ?_, ?_⟩
    · rw [show (⟨s', s.it⟩ : Iterating K V).map = s' from rfl, p1.1]; exact hs.headn
    · exact p1.path p2 hs.next (fun y hy hd => p3 y hd (hl2 y hy))
    · show Path s'.nexts (s'.heads.get s.it.head) _ t
      rw [hheads]
      exact p1.path p2 hs.chain (fun y hy hd => p3 y hd (hlive y hy))
  · unfold rest
    rw [orderFrom_pres p1 p2 h n (s.it.head + 1) (by omega) (by omega)]
    intro x hx hd
    exact p3 x hd (((orderFrom_spec h n (s.it.head + 1) (by omega) (by omega)).2 x).1 hx).1

theorem cinv_still {s : Iterating K V} {s' : Index K V} {c : Cursor K V} {a' : Abs K V} {F' : List Int}
    {b : Int} (h : CInv tight b s c) (hst : Still s.map s' c.map) (h' : Inv tight s' a' F') :
    CInv tight (b + 1) ⟨s', s.it⟩ { c with map := a' } := by
  obtain ⟨⟨F, hF⟩, hp⟩ := h
  refine ⟨⟨F', h'⟩, ?_⟩
  have hmod : s'.modificationCount = s.map.modificationCount := by obtain ⟨_, _, _, _, h⟩ := hst; exact h
  cases c with | mk pos todo a =>
  simp only at hF hp hst ⊢
  cases pos with
  | start =>
    obtain ⟨h1, h2⟩ := hp
    refine ⟨⟨h1.init, h1.removed, h1.mod.trans hmod.symm, h1.head, h1.next⟩, ?_⟩
    rw [h2]
    obtain ⟨D, p1, p2, p3, p4⟩ := hst
    show orderFrom s.map s.map.heads.len 0 = orderFrom s' s'.heads.len 0
    rw [p1.1]
    refine (orderFrom_pres p1 p2 hF _ 0 (by omega) (by omega) ?_).symm
    intro x hx hd
    exact p3 x hd (((orderFrom_spec hF _ 0 (by omega) (by omega)).2 x).1 hx).1
  | «at» e =>
    obtain ⟨l1, l2, n, t, h1, h2, h3, h4⟩ := hp
    obtain ⟨g1, g2⟩ := mid_still hF hst h1
    exact ⟨l1, l2, n, t, g1, h2, h3, h4.trans g2.symm⟩
  | removed e =>
    obtain ⟨l1, l2, n, t, h1, h2, h3, h4⟩ := hp
    obtain ⟨g1, g2⟩ := mid_still hF hst h1
    exact ⟨l1, l2, n, t, g1, h2, h3, h4.trans g2.symm⟩
  | done =>
    obtain ⟨h1, h2⟩ := hp
    obtain ⟨D, p1, -⟩ := hst
    refine ⟨⟨h1.init, h1.mod.trans hmod.symm, ?_, ?_, h1.next, h1.entry, h1.removed⟩, h2⟩
    · show (s'.heads.len : Int) ≤ s.it.head
      rw [p1.1]; exact h1.head
    · show s.it.head ≤ (s'.heads.len : Int) + _
      rw [p1.1]; have := h1.bound; omega

/-- The relation between a program state and the ideal one; `n` bounds the number of calls so far. -/
def UInv (tight : Prop) (n : Int) (s : Iterating K V) (u : Use K V) : Prop :=
  (∃ F, Inv tight s.map u.cursor.map F) ∧
  match u.mode with
  | .valid => CInv tight n s u.cursor
  | .stale => ∃ d, 1 ≤ d ∧ d ≤ 2 * n ∧ (s.map.modificationCount - s.it.internalModCount - d) % 4294967296 = 0
  | .void => True

theorem onMap_res {α : Type} (m : JM (Index K V) α) (s : Iterating K V) :
    (onMap m s).out = (m s.map).out ∧ (onMap m s).state = { s with map := (m s.map).state } := by
  unfold onMap
  simp only
  cases hm : m s.map <;> exact ⟨rfl, rfl⟩

theorem use_step {n : Int} (hn : n ≤ 1073741824) (s : Iterating K V) (u : Use K V) (o : UseOp K V)
    (h : UInv tight n s u) (h0 : 0 ≤ n) (hg : UseGuard o u) :
    UseOk o (useStep o s).out u ∧
      UInv tight (n + 1) (useStep o s).state (useAfter (entriesOf s.map) o (useStep o s).out u) := by
  obtain ⟨⟨F, hF⟩, hm⟩ := h
  cases o with
  | call o =>
    obtain ⟨r1, r2⟩ := onMap_res (step o) s
    have hg' : Guard o u.cursor.map := hg
    obtain ⟨k1, -, F', k2⟩ := step_spec hF o hg'
    have r1' : (useStep (.call o) s).out = (step o s.map).out := r1
    have r2' : (useStep (.call o) s).state = { s with map := (step o s.map).state } := r2
    rw [r1', r2']
    simp only [UseOk, useAfter]
    refine ⟨k1, ⟨F', k2⟩, ?_⟩
    by_cases hc : o = .clear
    · subst hc; trivial
    have hmode : isClear o = false := by cases o <;> first | rfl | exact absurd rfl hc
    simp only [hmode, Bool.false_eq_true, if_false]
    obtain ⟨d, m1, m2, m3, m4⟩ := Counts.step hc s.map
    by_cases hv : u.mode = .valid
    · rw [hv] at hm
      by_cases hl : (after o (step o s.map).out u.cursor.map).rows.length = u.cursor.map.rows.length
      · rw [if_neg (by simp [hl]), hv]
        exact cinv_still hm (step_still hF o hg' hc hl) k2
      · rw [if_pos ⟨hv, hl⟩]
        refine ⟨d, m4 ?_, by omega, ?_⟩
        · rw [k2.size, hF.size]; omega
        · have := CInv.mod hm
          simp only [this]; exact m3
    · rw [if_neg (fun hh => hv hh.1)]
      cases hmo : u.mode with
      | valid => exact absurd hmo hv
      | void => trivial
      | stale =>
        rw [hmo] at hm
        obtain ⟨e, e1, e2, e3⟩ := hm
        exact ⟨e + d, by omega, by omega, by omega⟩
  | iterator =>
    obtain ⟨it', h1, h2⟩ := cinv_reset hF s.it
    have hr : useStep .iterator s = .ok .unit ⟨s.map, it'⟩ := by
      simp only [useStep]
      rw [JM.bind_ok h1]; rfl
    rw [hr]
    refine ⟨rfl, ⟨F, hF⟩, ?_⟩
    have : entriesOf s.map = order s.map := by
      unfold entriesOf
      have : result .forEachEntry s.map = .ok (.ints (order s.map)) := by
        simp only [result, step]; rw [JM.bind_ok (forEachEntry_spec hF)]; rfl
      rw [this]
    show CInv tight (n + 1) ⟨s.map, it'⟩ ⟨.start, entriesOf s.map, u.cursor.map⟩
    rw [this]; exact ⟨h2.1, h2.2⟩
  | next =>
    have hg' : u.mode ≠ .void := hg
    cases hmo : u.mode with
    | void => exact absurd hmo hg'
    | stale =>
      rw [hmo] at hm
      obtain ⟨e, e1, e2, e3⟩ := hm
      have hr : useStep .next s = .err .concurrentModification s := by
        simp only [useStep]
        apply JM.bind_err
        unfold Iterating.next
        rw [JM.bind_ok (JM.get_apply _), if_pos (by omega)]; rfl
      rw [hr]
      simp only [UseOk, useAfter, hmo, if_true]
      refine ⟨rfl, ⟨F, hF⟩, ?_⟩
      rw [hmo]
      exact ⟨e, e1, by omega, e3⟩
    | valid =>
      rw [hmo] at hm
      obtain ⟨c1, c2⟩ := cursor_step h0 hn s u.cursor .next hm
      have hr : useStep .next s = (match itStep .next s with
          | .ok (some e) t => .ok (.int e) t
          | .ok none t => .ok (.bool false) t
          | .err e t => .err e t) := by
        simp only [useStep, itStep, JM.bind_apply]
        cases hx : Iterating.next s with
        | err e t => rfl
        | ok b t => cases b <;> rfl
      have hne : ¬ u.mode = .stale := by rw [hmo]; decide
      simp only [UseOk, useAfter, if_neg hne]
      have c2' := c2
      obtain ⟨⟨F', hF'⟩, -⟩ := c2
      rw [hr]
      cases hx : itStep .next s with
      | err e t =>
        rw [hx] at c1
        cases ht : u.cursor.todo <;> simp [Cursor.step, ht] at c1
      | ok b t =>
        rw [hx] at c1 c2' hF'
        refine ⟨?_, ?_⟩
        · cases ht : u.cursor.todo with
          | nil =>
            simp only [Cursor.step, ht, Res.out_ok, Except.ok.injEq] at c1
            subst c1; rfl
          | cons e l =>
            simp only [Cursor.step, ht, Res.out_ok, Except.ok.injEq] at c1
            subst c1; rfl
        · have : (match (Res.ok b t : Res (Iterating K V) (Option Int)) with
            | .ok (some e) t => (.ok (.int e) t : Res (Iterating K V) (Out K V))
            | .ok none t => .ok (.bool false) t
            | .err e t => .err e t).state = t := by cases b <;> rfl
          rw [this]
          refine ⟨⟨F', hF'⟩, ?_⟩
          simp only [hmo]
          exact c2'
  | remove =>
    have hg' : u.mode ≠ .void := hg
    cases hmo : u.mode with
    | void => exact absurd hmo hg'
    | stale =>
      rw [hmo] at hm
      obtain ⟨e, e1, e2, e3⟩ := hm
      have hr : useStep .remove s = .err .concurrentModification s := by
        simp only [useStep]
        apply JM.bind_err
        unfold Iterating.remove
        rw [JM.bind_ok (JM.get_apply _), if_pos (by omega)]; rfl
      rw [hr]
      simp only [UseOk, useAfter, hmo, if_true]
      refine ⟨rfl, ⟨F, hF⟩, ?_⟩
      rw [hmo]
      exact ⟨e, e1, by omega, e3⟩
    | valid =>
      rw [hmo] at hm
      obtain ⟨c1, c2⟩ := cursor_step h0 hn s u.cursor .remove hm
      have hr : (useStep .remove s).out = (itStep .remove s).out.map (fun _ => .unit) ∧
          (useStep .remove s).state = (itStep .remove s).state := by
        simp only [useStep, itStep, JM.bind_apply]
        cases hx : Iterating.remove s <;> exact ⟨rfl, rfl⟩
      have hne : ¬ u.mode = .stale := by rw [hmo]; decide
      simp only [UseOk, useAfter, if_neg hne]
      rw [hr.1, hr.2, c1]
      refine ⟨rfl, c2.1, ?_⟩
      simp only [hmo]
      exact c2

theorem use_legal : ∀ (ops : List (UseOp K V)) (n : Int) (s : Iterating K V) (u : Use K V), UInv tight n s u →
    0 ≤ n → n + ops.length ≤ 1073741824 → UseLegal u s ops
  | [], _, _, _, _, _, _ => trivial
  | o :: ops, n, s, u, h, h0, hn => by
    intro hg
    simp only [List.length_cons] at hn
    obtain ⟨h1, h2⟩ := use_step (by omega) s u o h h0 hg
    exact ⟨h1, use_legal ops (n + 1) _ _ h2 (by omega) (by omega)⟩

end Verif.Iterating
