import Verif.Spec.Callbacks
import Verif.Props.Hydra
set_option linter.unusedSectionVars false
/-! Proof that an iterator of the hydra deque keeps its place while the deque is changed. -/
namespace Verif.HydraIt
open Verif.Hydra Verif.HydraSpec Verif.Linked
variable {α : Type}

/-- The field of the iterator is the entry of the value it hands out next. -/
def Cur (id : Int) (a : Stored α) (e : Int) : Place α → Prop
  | .ended => e = -1
  | .at front v back => ∃ B C, a.lists id = B ++ (e, v) :: C ∧ B.map Prod.snd = front ∧ C.map Prod.snd = back
  | .lost => True

theorem links_drop {f : Int → Int} : ∀ (l : List Int) {m : List Int}, Links f (l ++ m) → Links f m
  | [], _, h => h
  | _ :: l, _, h => links_drop l h.2

theorem Cur.call {id : Int} (hid : 0 ≤ id) {a : Stored α} {e : Int} {p : Place α} (h : Cur id a e p)
    (o : Op α) : Cur id (storedStep o a).2 e (p.after id o) := by
  cases p with
  | ended => cases o <;> exact h
  | lost => cases o <;> trivial
  | «at» front v back =>
    obtain ⟨B, C, h1, h2, h3⟩ := h
    have same : Cur id a e (.at front v back) := ⟨B, C, h1, h2, h3⟩
    cases o with
    | addFirst i x =>
      simp only [storedStep, Place.after]
      by_cases hi : i = id
      · subst hi
        rw [if_neg (by omega), if_pos rfl]
        exact ⟨(a.entry, x) :: B, C, by simp [upd, h1], by simp [h2], h3⟩
      · rw [if_neg hi]
        split
        · exact same
        · exact ⟨B, C, by simp [upd, Ne.symm hi, h1], h2, h3⟩
    | addLast i x =>
      simp only [storedStep, Place.after]
      by_cases hi : i = id
      · subst hi
        rw [if_neg (by omega), if_pos rfl]
        exact ⟨B, C ++ [(a.entry, x)], by simp [upd, h1], h2, by simp [h3]⟩
      · rw [if_neg hi]
        split
        · exact same
        · exact ⟨B, C, by simp [upd, Ne.symm hi, h1], h2, h3⟩
    | removeFirst i =>
      simp only [storedStep, Place.after]
      by_cases hi : i = id
      · subst hi
        rw [if_pos rfl]
        cases B with
        | nil => subst h2; simp [Cur]
        | cons q B =>
          simp only [List.map_cons] at h2
          subst h2
          simp only [h1, List.cons_append]
          exact ⟨B, C, by simp [upd], rfl, h3⟩
      · rw [if_neg hi]
        split
        · exact same
        · exact ⟨B, C, by simp [upd, Ne.symm hi, h1], h2, h3⟩
    | removeLast i =>
      simp only [storedStep, Place.after]
      by_cases hi : i = id
      · subst hi
        rw [if_pos rfl]
        rcases List.eq_nil_or_concat C with rfl | ⟨C', q, rfl⟩
        · subst h3; simp [Cur]
        · simp only [List.concat_eq_append, List.map_append, List.map_cons, List.map_nil] at h3
          subst h3
          have hl : a.lists i = (B ++ (e, v) :: C') ++ [q] := by rw [h1]; simp
          rw [if_neg (by simp), hl, List.getLast?_concat, List.dropLast_concat, List.dropLast_concat]
          exact ⟨B, C', by simp [upd], h2, rfl⟩
      · rw [if_neg hi]
        split
        · exact same
        · exact ⟨B, C, by simp [upd, Ne.symm hi, h1], h2, h3⟩
    | clear => trivial
    | iterate i => simp only [storedStep]; split <;> exact same
    | reverseIterate i => simp only [storedStep]; split <;> exact same
    | _ => exact same

/-- The relation between the deque with an iterator and the family with a place. -/
def Rel (fwd : Bool) (id : Int) (d : α) (t : HydraIt α) (a : Stored α) (f : Family α × Place α) : Prop :=
  Hydra.Inv d t.deque a ∧ forget a = f.1 ∧ Cur id a t.entry f.2

theorem start_spec {fwd : Bool} {id : Int} (hid : 0 ≤ id) {d : α} {s : Hydra α} {a : Stored α}
    (h : Hydra.Inv d s a) : ∃ t, HydraIt.start fwd id s = .ok () t ∧
    Rel fwd id d t a (forget a, Place.start fwd ((forget a).lists id)) := by
  have hl := h.hl
  have key : ∀ (st : Hydra α → Arr Int) (x : Int),
      (id ≥ (st s).len → x = -1) → (id < (st s).len → (st s).get id = x) →
      Hydra.iterReset st id s = .ok x s := by
    intro st x h1 h2
    unfold Hydra.iterReset
    rw [JM.bind_ok (JM.get_apply _)]
    split
    · rw [h1 (by omega)]; rfl
    · rw [rd_ok _ (by omega), h2 (by omega)]
  unfold HydraIt.start
  cases fwd with
  | true =>
    have := key Hydra.heads (hd (E a id)) (fun hge => by rw [E, h.out id (by omega)]; rfl)
      (fun hlt => h.head id hid hlt)
    simp only [if_true, this]
    refine ⟨_, rfl, h, rfl, ?_⟩
    simp only [Place.start, if_true, forget, E]
    cases hL : a.lists id with
    | nil => rfl
    | cons q l => exact ⟨[], l, by simp [hL], rfl, rfl⟩
  | false =>
    have := key Hydra.tails (hd (E a id).reverse) (fun hge => by rw [E, h.out id (by omega)]; rfl)
      (fun hlt => h.tail id hid (by omega))
    simp only [Bool.false_eq_true, if_false, this]
    refine ⟨_, rfl, h, rfl, ?_⟩
    simp only [Place.start, Bool.false_eq_true, if_false, forget, E]
    rcases List.eq_nil_or_concat (a.lists id) with hL | ⟨l, q, hL⟩
    · rw [hL]; rfl
    · rw [List.concat_eq_append] at hL
      rw [hL]
      simp only [List.map_append, List.map_cons, List.map_nil, List.reverse_append, List.reverse_cons,
        List.reverse_nil, List.nil_append, List.singleton_append, hd_cons, List.reverse_reverse]
      exact ⟨l, [], by simp [hL], rfl, rfl⟩

theorem advance_spec {fwd : Bool} {id : Int} {d : α} {s : Hydra α} {a : Stored α} (h : Hydra.Inv d s a)
    {e : Int} {front back : List α} {v : α} (hc : Cur id a e (.at front v back)) :
    ∃ e', Hydra.iterNext (if fwd then Hydra.nexts else Hydra.prevs) e s = .ok (v, e') s ∧
      Cur id a e' ((Place.at front v back).advance fwd) := by
  obtain ⟨B, C, h1, h2, h3⟩ := hc
  have hE : E a id = B.map Prod.fst ++ e :: C.map Prod.fst := by rw [E, h1]; simp
  have hr := h.rng id e (by rw [hE]; simp)
  have hx := h.nx0
  have hv := h.vals id e v (by rw [h1]; simp)
  have hvn := h.vn
  have hvp := h.vp
  unfold Hydra.iterNext
  rw [if_neg (by omega), JM.bind_ok (rd_ok _ (by omega)), hv]
  cases fwd with
  | true =>
    have hL : Links s.nexts.get (e :: C.map Prod.fst) := links_drop _ (hE ▸ h.fwd id)
    simp only [if_true]
    rw [JM.bind_ok (rd_ok _ (by omega)), hL.1]
    refine ⟨_, rfl, ?_⟩
    simp only [Place.advance, if_true]
    cases C with
    | nil => subst h3; rfl
    | cons q C =>
      subst h3
      exact ⟨B ++ [(e, v)], C, by simp [h1], by simp [h2], rfl⟩
  | false =>
    have hL : Links s.prevs.get (e :: (B.map Prod.fst).reverse) := by
      have := h.bwd id
      rw [hE, List.reverse_append, List.reverse_cons, List.append_assoc] at this
      exact links_drop _ this
    simp only [Bool.false_eq_true, if_false]
    rw [JM.bind_ok (rd_ok _ (by omega)), hL.1]
    refine ⟨_, rfl, ?_⟩
    simp only [Place.advance, Bool.false_eq_true, if_false]
    rcases List.eq_nil_or_concat B with rfl | ⟨B', q, rfl⟩
    · subst h2; rfl
    · rw [List.concat_eq_append] at h2 h1 ⊢
      subst h2
      simp only [List.map_append, List.map_cons, List.map_nil, List.reverse_append, List.reverse_cons,
        List.reverse_nil, List.nil_append, List.singleton_append, hd_cons, List.reverse_reverse]
      exact ⟨B', (e, v) :: C, by simp [h1], rfl, by simp [h3]⟩

theorem onDeque_ok {β : Type} {m : JM (Hydra α) β} {t : HydraIt α} {b : β} {u : Hydra α}
    (h : m t.deque = .ok b u) : onDeque m t = .ok b { t with deque := u } := by
  unfold onDeque
  simp only [h]

theorem onDeque_err {β : Type} {m : JM (Hydra α) β} {t : HydraIt α} {e : Err} {u : Hydra α}
    (h : m t.deque = .err e u) : onDeque m t = .err e { t with deque := u } := by
  unfold onDeque
  simp only [h]

theorem next_add (o : Op α) (a : Stored α) :
    (storedStep o a).2.next ≤ a.next + (if isAdd o then 1 else 0) := by
  have ht : a.take.next ≤ a.next + 1 := by unfold Stored.take; split <;> simp <;> omega
  cases o <;> simp only [storedStep, isAdd]
  · split
    · simp; omega
    · simp; exact ht
  · split
    · simp; omega
    · simp; exact ht
  · split <;> simp
  · split <;> simp
  all_goals (try split) <;> simp

theorem run_spec {fwd : Bool} {id : Int} (hid : 0 ≤ id) {d : α} :
    ∀ (iops : List (IOp α)) (t : HydraIt α) (a : Stored α) (f : Family α × Place α),
      Rel fwd id d t a f →
      (∀ o ∈ HydraSpec.calls iops, ∀ i, idOf o = some i → -2 ^ 31 ≤ i ∧ i < 2 ^ 30) →
      a.next + ((HydraSpec.calls iops).countP isAdd : Int) < 2 ^ 30 →
      Allowed (itStep fwd id) Known f iops →
      (runM (HydraIt.step fwd d) t iops).1.map eraseOut = (runS (itStep fwd id) f iops).1
  | [], _, _, _, _, _, _, _ => rfl
  | .call o :: iops, t, a, (F, p), ⟨h1, h2, h3⟩, hi, hn, hk => by
    simp only [HydraSpec.calls, List.mem_cons, List.countP_cons] at hi hn
    have hroom : Room o a :=
      (allowed_of_fits_from [o] a (fun o' ho' => hi o' (Or.inl (by simpa using ho'))) (by
        simp only [List.countP_cons, List.countP_nil]
        split at hn <;> simp_all <;> omega)).1
    obtain ⟨r1, r2⟩ := Hydra.step_spec t.deque a o h1 hroom
    obtain ⟨f1, f2⟩ := forget_step o a
    have hst : (HydraIt.step fwd d (.call o) t).out = (Hydra.step d o t.deque).out ∧
        (HydraIt.step fwd d (.call o) t).state = { t with deque := (Hydra.step d o t.deque).state } := by
      simp only [HydraIt.step]
      cases hr : Hydra.step d o t.deque with
      | ok b u => rw [onDeque_ok hr]; exact ⟨rfl, rfl⟩
      | err b u => rw [onDeque_err hr]; exact ⟨rfl, rfl⟩
    have hna := next_add o a
    have := run_spec hid iops { t with deque := (Hydra.step d o t.deque).state } (storedStep o a).2
      (itStep fwd id (.call o) (F, p)).2 ⟨r2, by simp only at h2; rw [f2, h2]; rfl, Cur.call hid h3 o⟩
      (fun o' ho' => hi o' (Or.inr ho'))
      (by split at hn <;> simp_all <;> omega) hk.2
    simp only [runM, runS, List.map_cons, hst.1, hst.2, r1]
    rw [this]
    simp only [itStep]
    simp only at h2
    rw [f1, h2]
  | .hasNext :: iops, t, a, (F, p), ⟨h1, h2, h3⟩, hi, hn, hk => by
    have := run_spec hid iops t a (F, p) ⟨h1, h2, h3⟩ hi hn hk.2
    have e : (HydraIt.step fwd d .hasNext t).out = (itStep fwd id .hasNext (F, p)).1 := by
      show Except.ok (Out.bool (Hydra.iterHasNext t.entry)) = _
      clear this
      cases p with
      | ended =>
        have h4 : t.entry = -1 := h3
        rw [h4]; rfl
      | «at» b v c =>
        obtain ⟨B, C, g1, -, -⟩ := h3
        have := h1.rng id t.entry (by rw [E, g1]; simp)
        simp only [Hydra.iterHasNext, itStep]
        rw [decide_eq_true (by omega)]
      | lost => exact absurd hk.1 (by simp [Known])
    have e2 : (HydraIt.step fwd d .hasNext t).state = t := rfl
    have e3 : (itStep fwd id .hasNext (F, p)).2 = (F, p) := rfl
    simp only [runM, runS, List.map_cons, e, e2, e3, this]
    rfl
  | .next :: iops, t, a, (F, p), ⟨h1, h2, h3⟩, hi, hn, hk => by
    cases p with
    | ended =>
      have := run_spec hid iops t a (F, .ended) ⟨h1, h2, h3⟩ hi hn hk.2
      have e : HydraIt.step fwd d .next t = .err .invalidEntry t := by
        simp only [Cur] at h3
        simp only [HydraIt.step]
        have : Hydra.iterNext (if fwd then Hydra.nexts else Hydra.prevs) t.entry t.deque =
            .err .invalidEntry t.deque := by
          unfold Hydra.iterNext; rw [if_pos (by omega)]; rfl
        rw [JM.bind_ok (JM.get_apply _), JM.bind_err (onDeque_err this)]
      simp only [runM, runS, List.map_cons, e]
      simp only [Res.out, Res.state, this, itStep, eraseOut]
    | «at» b v c =>
      obtain ⟨e', n1, n2⟩ := advance_spec (fwd := fwd) h1 h3
      have e : HydraIt.step fwd d .next t = .ok (.val v) { t with entry := e' } := by
        simp only [HydraIt.step]
        rw [JM.bind_ok (JM.get_apply _), JM.bind_ok (onDeque_ok n1)]
        rfl
      have := run_spec hid iops { t with entry := e' } a (F, (Place.at b v c).advance fwd) ⟨h1, h2, n2⟩ hi hn hk.2
      simp only [runM, runS, List.map_cons, e]
      simp only [Res.out, Res.state, this, itStep, eraseOut]
    | lost => exact absurd hk.1 (by simp [Known])

end Verif.HydraIt
