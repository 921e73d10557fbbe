import Verif.Spec.CallbacksIndex
import Verif.Proofs.Reach
set_option linter.unusedSectionVars false
/-! Proof that the `forEach` methods of the indexed collections keep their place under tame consumers. -/
namespace Verif.Index
open Verif.IndexSpec
variable {K V : Type} [Inhabited K] [Inhabited V]
variable {tight : Prop} {s : Index K V} {a : Abs K V} {F : List Int}

theorem Pres.trans {s s' s'' : Index K V} {D E : List Int} (h : Pres s s' D) (h' : Pres s' s'' E) :
    Pres s s'' (D ++ E) := by
  obtain ⟨h1, h2, h3, h4⟩ := h
  obtain ⟨g1, g2, g3, g4⟩ := h'
  refine ⟨by omega, by omega, ?_, ?_⟩
  · intro i hi
    simp only [List.mem_append, not_or] at hi
    have := h3 i hi.1
    rw [g3 i (by rw [this]; exact hi.2), this]
  · intro x hx hi
    simp only [List.mem_append, not_or] at hi hx
    have := h4 x hx.1 hi.1
    rw [g4 x hx.2 (by rw [this]; exact hi.2), this]

/-- What a tame call does: links between entries not yet handed out stay, and so do these entries and their keys. -/
def Quiet (es : List Int) (s s' : Index K V) (a a' : Abs K V) : Prop :=
  ∃ D, Pres s s' D ∧ (∀ d ∈ D, 0 ≤ d) ∧ (∀ d ∈ D, d ∈ es ∨ d ∉ a.live) ∧
    (∀ r ∈ a.rows, r.entry ∉ es → ∃ v, (⟨r.entry, r.key, v⟩ : Row K V) ∈ a'.rows) ∧
    (es = [] → s'.modificationCount = s.modificationCount) ∧
    D.length ≤ 1 ∧ (∀ r ∈ a'.rows, r.entry ∉ D ∧ ∃ v, (⟨r.entry, r.key, v⟩ : Row K V) ∈ a.rows) ∧
    (∀ r ∈ a.rows, r.entry ∉ D → ∃ v, (⟨r.entry, r.key, v⟩ : Row K V) ∈ a'.rows)

theorem quiet_refl (es : List Int) (s : Index K V) (a : Abs K V) : Quiet es s s a a :=
  ⟨[], Pres.refl _ _, by simp, by simp, fun r hr _ => ⟨r.val, hr⟩, fun _ => rfl, by simp,
    fun r hr => ⟨by simp, r.val, hr⟩, fun r hr _ => ⟨r.val, hr⟩⟩

theorem quiet_same {es : List Int} {s s' : Index K V} {a a' : Abs K V} (h : s' = s) (h' : a' = a) :
    Quiet es s s' a a' := by subst h; subst h'; exact quiet_refl _ _ _

theorem quiet_drop {es : List Int} {s' : Index K V} {a' : Abs K V} {e : Int}
    (hp : Pres s s' [e]) (h0 : 0 ≤ e) (he : e ∈ es) (hr : a'.rows = (a.drop e).rows) : Quiet es s s' a a' := by
  refine ⟨[e], hp, by simpa using h0, by simp [he], ?_, by rintro rfl; simp at he, by simp, ?_, ?_⟩
  · intro r hr' hne
    refine ⟨r.val, ?_⟩
    rw [hr]
    simp only [Abs.drop, List.mem_filter, decide_eq_true_eq]
    exact ⟨hr', by rintro rfl; exact hne he⟩
  · intro r hr'
    rw [hr] at hr'
    simp only [Abs.drop, List.mem_filter, decide_eq_true_eq] at hr'
    exact ⟨by simpa using hr'.2, r.val, hr'.1⟩
  · intro r hr' hne
    refine ⟨r.val, ?_⟩
    rw [hr]
    simp only [Abs.drop, List.mem_filter, decide_eq_true_eq]
    exact ⟨hr', by simpa using hne⟩

theorem quiet_setVal {es : List Int} {s' : Index K V} {a' : Abs K V} {e : Int} {v : V}
    (h1 : s'.heads = s.heads) (h2 : s'.nexts = s.nexts)
    (h3 : s'.modificationCount = s.modificationCount) (hr : a'.rows = Abs.setVal e v a.rows) :
    Quiet es s s' a a' := by
  refine ⟨[], ⟨by rw [h1], by rw [h2], fun i _ => by rw [h1], fun x _ _ => by rw [h2]⟩, by simp, by simp, fun r hr' _ => ?_, fun _ => h3,
    by simp, ?_, fun r hr' _ => ?_⟩
  · rw [hr]
    unfold Abs.setVal
    by_cases he : r.entry = e
    · exact ⟨v, List.mem_map.2 ⟨r, hr', by rw [if_pos he]⟩⟩
    · exact ⟨r.val, List.mem_map.2 ⟨r, hr', by rw [if_neg he]⟩⟩
  · intro r hr'
    rw [hr] at hr'
    obtain ⟨q, hq, rfl⟩ := List.mem_map.1 hr'
    by_cases he : q.entry = e
    · rw [if_pos he]; exact ⟨by simp, q.val, hq⟩
    · rw [if_neg he]; exact ⟨by simp, q.val, hq⟩
  · rw [hr]
    unfold Abs.setVal
    by_cases he : r.entry = e
    · exact ⟨v, List.mem_map.2 ⟨r, hr', by rw [if_pos he]⟩⟩
    · exact ⟨r.val, List.mem_map.2 ⟨r, hr', by rw [if_neg he]⟩⟩

theorem step_quiet {es : List Int} (h : Inv tight s a F) (o : Op K V) (hg : Guard o a) (ht : Tame es o a) :
    Quiet es s (step o s).state a (after o (step o s).out a) := by
  have rdst : ∀ {β : Type} (sel : Index K V → Arr β) (e : Int) (g : β → Out K V),
      ((do return g (← rd sel e) : JM (Index K V) (Out K V)) s).state = s := by
    intro β sel e g
    simp only [JM.bind_apply]
    unfold rd; simp only
    split <;> rename_i hh <;> split at hh <;> simp at hh
    · rw [← hh.2]; rfl
    · rw [← hh.2]; rfl
  cases o with
  | add k =>
    obtain ⟨r, hf⟩ := Option.isSome_iff_exists.1 (show (a.find k).isSome = true from ht)
    have hr : step (.add k) s = .ok (.int r.entry) s := by
      simp only [step]; rw [JM.bind_ok (add_present h hf)]; rfl
    rw [hr]
    exact quiet_same rfl (by simp only [after, hf])
  | put k v =>
    obtain ⟨r, hf⟩ := Option.isSome_iff_exists.1 (show (a.find k).isSome = true from ht)
    obtain ⟨p1, p2⟩ := put_present h hf v
    have hr : step (.put k v) s = .ok (.int r.entry) { s with values := s.values.set r.entry v } := by
      simp only [step]; rw [JM.bind_ok p1]; rfl
    rw [hr]
    exact quiet_setVal (e := r.entry) (v := v) rfl rfl rfl (by simp only [after, hf])
  | lookupEntry k =>
    refine quiet_same ?_ rfl
    simp only [step]; rw [JM.bind_ok (lookupEntry_spec h k)]; rfl
  | containsKey k =>
    refine quiet_same ?_ rfl
    simp only [step, containsKey]; rw [JM.bind_ok (JM.bind_ok (lookupEntry_spec h k))]; rfl
  | get k =>
    refine quiet_same ?_ rfl
    simp only [step, getValue]
    rw [JM.bind_apply, JM.bind_ok (lookupEntry_spec h k)]
    split
    · rename_i hh
      split at hh
      · simp [JM.throw] at hh
      · unfold rd at hh; simp only at hh
        split at hh <;> simp at hh
        rw [← hh.2]; rfl
    · rename_i hh
      split at hh
      · simp [JM.throw] at hh; rw [← hh.2]; rfl
      · unfold rd at hh; simp only at hh
        split at hh <;> simp at hh
        rw [← hh.2]; rfl
  | getOrDefault k d =>
    refine quiet_same ?_ rfl
    simp only [step, getOrDefault]
    rw [JM.bind_apply, JM.bind_ok (lookupEntry_spec h k)]
    split
    · rename_i hh
      split at hh
      · simp at hh; rw [← hh.2]; rfl
      · unfold rd at hh; simp only at hh
        split at hh <;> simp at hh
        rw [← hh.2]; rfl
    · rename_i hh
      split at hh
      · simp at hh
      · unfold rd at hh; simp only at hh
        split at hh <;> simp at hh
        rw [← hh.2]; rfl
  | remove k =>
    cases hf : a.find k with
    | none =>
      have hr : step (.remove k) s = .ok (.int (-1)) s := by
        simp only [step, remove]; rw [JM.bind_ok (removeKey_absent h hf true)]; rfl
      rw [hr]
      exact quiet_same rfl (by simp only [after, hf])
    | some r =>
      obtain ⟨s', F', h1, h2, _, h4, _⟩ := removeKey_present h hf true
      have hr : step (.remove k) s = .ok (.int r.entry) s' := by
        simp only [step, remove]; rw [JM.bind_ok h1]; rfl
      rw [hr]
      exact quiet_drop h4 (h.live_range (List.mem_map_of_mem (find_some hf).1)).1 (ht r hf)
        (by simp only [after, hf])
  | removeAt e =>
    by_cases he : e ∈ a.live
    · obtain ⟨s', h1, h2, _, h4⟩ := removeAt_live h he
      have hr : step (.removeAt e) s = .ok .unit s' := by
        simp only [step]; rw [JM.bind_ok h1]; rfl
      rw [hr]
      exact quiet_drop h4 (h.live_range he).1 (ht he) (by simp only [after, if_pos he])
    · refine quiet_same ?_ (by simp only [after, if_neg he])
      rcases removeAt_other h he with h1 | h1
      · simp only [step]; rw [JM.bind_ok h1]; rfl
      · simp only [step]; rw [JM.bind_err h1]; rfl
  | removeAtAndReserve e =>
    obtain ⟨s', F', h1, h2, _, h4⟩ := reserve_ok h hg
    have hr : step (.removeAtAndReserve e) s = .ok .unit s' := by
      simp only [step]; rw [JM.bind_ok h1]; rfl
    rw [hr]
    obtain ⟨r, hr1, hr2, -⟩ := hg
    exact quiet_drop h4 (h.live_range (hr2 ▸ List.mem_map_of_mem hr1)).1 ht rfl
  | freeReservedEntry e =>
    have hh : e ∈ a.held := hg
    have hrng := h.held_range hh
    have hr : step (.freeReservedEntry e) s = .ok .unit
        { s with nexts := s.nexts.set e s.freeList, freeList := e, keys := s.keys.set e default,
                 values := s.values.set e default } := by
      simp only [step]
      rw [JM.bind_ok (freeReservedEntry_ok hrng.1 hrng.2 (klen_eq h) (vlen_eq h))]; rfl
    rw [hr]
    refine ⟨[e], ⟨rfl, rfl, fun _ _ => rfl, ?_⟩, by simpa using hrng.1, ?_, fun r hr' _ => ⟨r.val, hr'⟩, fun _ => rfl,
      by simp, fun r hr' => ⟨?_, r.val, hr'⟩, fun r hr' _ => ⟨r.val, hr'⟩⟩
    · intro x hx _
      exact Arr.get_set_ne _ _ (by simpa using hx)
    · intro d hd
      simp only [List.mem_singleton] at hd
      subst hd
      exact Or.inr fun hl => h.live_held hl hh
    · simp only [List.mem_singleton]
      rintro rfl
      exact h.live_held (List.mem_map_of_mem hr') hh
  | getKeyAt e => exact quiet_same (rdst _ _ _) rfl
  | getValueAt e => exact quiet_same (rdst _ _ _) rfl
  | getValueAtOrDefault e d =>
    refine quiet_same ?_ rfl
    simp only [step, getValueAtOrDefault]
    by_cases hh : e < 0 ∨ e ≥ s.values.len
    · rw [JM.bind_ok (a := d) (s' := s)]
      · rfl
      · rw [JM.bind_ok (JM.get_apply _), if_pos hh]; rfl
    · rw [JM.bind_ok (a := s.values.get e) (s' := s)]
      · rfl
      · rw [JM.bind_ok (JM.get_apply _), if_neg hh, rd_ok _ ⟨by omega, by omega⟩]
  | putValueAt e v =>
    rcases wrValues_out e v s with ⟨h0, h1, hw⟩ | ⟨hn, hw⟩
    · have hr : step (.putValueAt e v) s = .ok .unit { s with values := s.values.set e v } := by
        simp only [step, putValueAt]; rw [JM.bind_ok hw]; rfl
      rw [hr]
      exact quiet_setVal (e := e) (v := v) rfl rfl rfl rfl
    · have hr : step (.putValueAt e v) s = .err .indexOutOfBounds s := by
        simp only [step, putValueAt]; rw [JM.bind_err hw]
      rw [hr]
      exact quiet_setVal (e := e) (v := v) rfl rfl rfl rfl
  | size => exact quiet_refl _ _ _
  | isEmpty => exact quiet_refl _ _ _
  | capacity => exact quiet_refl _ _ _
  | forEach =>
    refine quiet_same ?_ rfl
    simp only [step]; rw [JM.bind_ok (forEach_spec h)]; rfl
  | forEachEntry =>
    refine quiet_same ?_ rfl
    simp only [step]; rw [JM.bind_ok (forEachEntry_spec h)]; rfl
  | forEachValue =>
    refine quiet_same ?_ rfl
    simp only [step]; rw [JM.bind_ok (forEachValue_spec h)]; rfl
  | clear => exact absurd ht id
  | setHashMethod _ => exact absurd ht id
  | setEqMethod _ => exact absurd ht id

/-- The entries to come are held and were not handed out. -/
def Ahead (es : List Int) (a : Abs K V) (R : List Int) : Prop := ∀ x ∈ R, x ∈ a.live ∧ x ∉ es

theorem Quiet.ahead {es R : List Int} {s s' : Index K V} {a a' : Abs K V} (h : Quiet es s s' a a')
    (hR : Ahead es a R) : Ahead es a' R := by
  obtain ⟨D, -, -, -, h4, -, -⟩ := h
  intro x hx
  obtain ⟨h5, h6⟩ := hR x hx
  obtain ⟨r, hr, rfl⟩ := List.mem_map.1 h5
  obtain ⟨v, hv⟩ := h4 r hr h6
  exact ⟨List.mem_map.2 ⟨_, hv, rfl⟩, h6⟩

theorem calls_quiet {es R : List Int} : ∀ (ops : List (Op K V)) (s : Index K V) (a : Abs K V) (F : List Int),
    Inv tight s a F → Tames es a s ops → Ahead es a R →
    ∃ F' D, Inv tight (final s ops) (ideal a s ops) F' ∧ Pres s (final s ops) D ∧ (∀ d ∈ D, 0 ≤ d) ∧
      (∀ x ∈ R, x ∉ D) ∧ Ahead es (ideal a s ops) R ∧
      ∀ r ∈ a.rows, r.entry ∈ R → ∃ v, (⟨r.entry, r.key, v⟩ : Row K V) ∈ (ideal a s ops).rows
  | [], s, a, F, h, _, hR => ⟨F, [], h, Pres.refl _ _, by simp, by simp, hR, fun r hr _ => ⟨r.val, hr⟩⟩
  | o :: ops, s, a, F, h, ht, hR => by
    have hq := step_quiet h o ht.1.1 ht.1.2
    have hR' := hq.ahead hR
    obtain ⟨F1, h1⟩ := (step_spec h o ht.1.1).2.2
    obtain ⟨D, q1, q2, q3, q4, -, -⟩ := hq
    obtain ⟨F2, E, k1, k2, k3, k4, k5, k6⟩ := calls_quiet (R := R) ops _ _ F1 h1 ht.2 hR'
    refine ⟨F2, D ++ E, k1, q1.trans k2, ?_, ?_, k5, ?_⟩
    · intro d hd
      rcases List.mem_append.1 hd with h | h
      · exact q2 d h
      · exact k3 d h
    · intro x hx hd
      rcases List.mem_append.1 hd with h | h
      · rcases q3 x h with h | h
        · exact (hR x hx).2 h
        · exact h (hR x hx).1
      · exact k4 x hx h
    · intro r hr hrR
      obtain ⟨v, hv⟩ := q4 r hr (hR _ hrR).2
      obtain ⟨v', hv'⟩ := k6 _ hv hrR
      exact ⟨v', hv'⟩

theorem handed_spec (h : Inv tight s a F) {k : Kind} {e : Int} (he : e ∈ a.live) {b : Out K V}
    (hb : match k with
      | .entries => b = .int e
      | .keys => result (.getKeyAt e) s = .ok b
      | .values => result (.getValueAt e) s = .ok b) : handed k e s = .ok b s := by
  have hr := h.live_range he
  cases k with
  | entries => subst hb; rfl
  | keys =>
    have hk : rd Index.keys e s = .ok (s.keys.get e) s := rd_ok _ ⟨hr.1, by rw [klen_eq h]; exact hr.2⟩
    have hb' : ((do return Out.key (← rd Index.keys e) : JM (Index K V) (Out K V)) s).out = .ok b := hb
    show (do return Out.key (← rd Index.keys e) : JM (Index K V) (Out K V)) s = _
    rw [JM.bind_ok hk] at hb' ⊢
    simp only [JM.pure_apply, Res.out_ok, Except.ok.injEq] at hb'
    rw [← hb']; rfl
  | values =>
    have hk : rd Index.values e s = .ok (s.values.get e) s := rd_ok _ ⟨hr.1, by rw [vlen_eq h]; exact hr.2⟩
    have hb' : ((do return Out.val (← rd Index.values e) : JM (Index K V) (Out K V)) s).out = .ok b := hb
    show (do return Out.val (← rd Index.values e) : JM (Index K V) (Out K V)) s = _
    rw [JM.bind_ok hk] at hb' ⊢
    simp only [JM.pure_apply, Res.out_ok, Except.ok.injEq] at hb'
    rw [← hb']; rfl

theorem walkDo_spec {k : Kind} {f : Consumer (Out K V) (Op K V)} {rest : List Int} {out : List (Out K V)}
    {t : Index K V} {c : Abs K V} :
    ∀ (fuel : Nat) (l es : List Int) (seen : List (Out K V)) (s : Index K V) (a : Abs K V) (F : List Int)
      (e u : Int), Inv tight s a F → Visits k f es seen s a (l ++ rest) out t c →
      Path s.nexts e l u → (l ++ rest).Nodup → Ahead es a (l ++ rest) → l.length < fuel →
      ∃ s' a' F' D es' seen', walkDo k f fuel e seen s = .ok seen' s' ∧ Inv tight s' a' F' ∧
        Visits k f es' seen' s' a' rest out t c ∧ seen'.length = seen.length + l.length ∧
        Pres s s' D ∧ (∀ d ∈ D, 0 ≤ d) ∧ (∀ x ∈ rest, x ∉ D) ∧ Ahead es' a' rest
  | 0, _, _, _, _, _, _, _, _, _, _, _, _, _, h => by omega
  | fuel + 1, [], es, seen, s, a, F, e, u, hI, hv, hp, _, hR, _ => by
    have h1 := hp.1; have h2 := hp.2
    refine ⟨s, a, F, [], es, seen, ?_, hI, hv, rfl, Pres.refl _ _, by simp, by simp, hR⟩
    rw [walkDo, if_neg (by omega)]; rfl
  | fuel + 1, x :: l, es, seen, s, a, F, e, u, hI, hv, hp, hnd, hR, hl => by
    obtain ⟨rfl, h0, h1, h2⟩ := hp
    rw [List.cons_append] at hv hnd hR
    simp only [List.nodup_cons] at hnd
    have hlive := (hR e (by simp)).1
    cases hv with
    | @step _ _ _ _ _ _ _ _ _ b hb ht hrest =>
      have hR1 : Ahead (es ++ [e]) a (l ++ rest) := by
        intro x hx
        have := hR x (by simp only [List.mem_cons]; exact Or.inr hx)
        refine ⟨this.1, ?_⟩
        simp only [List.mem_append, List.mem_singleton, not_or]
        exact ⟨this.2, by rintro rfl; exact hnd.1 hx⟩
      obtain ⟨F1, D, c1, c2, c3, c4, c5, -⟩ := calls_quiet _ s a F hI ht hR1
      have hp' := c2.path c3 h2 (fun y hy => c4 y (List.mem_append_left _ hy))
      obtain ⟨s', a', F', E, es', seen', w1, w2, w3, w4, w5, w6, w7, w8⟩ :=
        walkDo_spec fuel l (es ++ [e]) (seen ++ [b]) _ _ F1 _ u c1 hrest hp' hnd.2 c5 (by simpa using hl)
      refine ⟨s', a', F', D ++ E, es', seen', ?_, w2, w3, by rw [w4]; simp; omega, c2.trans w5, ?_, ?_, w8⟩
      · rw [walkDo, if_pos h0, JM.bind_ok (rd_ok _ ⟨h0, h1⟩), JM.bind_ok (handed_spec hI hlive hb)]
        have hc : callAll step (f (seen ++ [b])) s = .ok () (final s (f (seen ++ [b]))) := rfl
        rw [JM.bind_ok hc]
        exact w1
      · intro d hd
        rcases List.mem_append.1 hd with h | h
        · exact c3 d h
        · exact w6 d h
      · intro x hx hd
        rcases List.mem_append.1 hd with h | h
        · exact c4 x (List.mem_append_right _ hx) h
        · exact w7 x hx h

theorem scanDo_spec {k : Kind} {f : Consumer (Out K V) (Op K V)} {out : List (Out K V)}
    {t : Index K V} {c : Abs K V} (hits0 : Int) (inner : Nat) :
    ∀ (n fuel : Nat) (es : List Int) (seen : List (Out K V)) (s : Index K V) (a : Abs K V) (F : List Int) (i : Int),
      Inv tight s a F → Visits k f es seen s a (orderFrom s n i) out t c → Ahead es a (orderFrom s n i) →
      0 ≤ i → i + n = s.heads.len → n < fuel → s.nexts.len < inner →
      (seen.length : Int) + (orderFrom s n i).length = hits0 →
      scanDo k f hits0 inner fuel i seen s = .ok out t
  | n, 0, _, _, _, _, _, _, _, _, _, _, _, h, _, _ => by omega
  | 0, fuel + 1, es, seen, s, a, F, i, hI, hv, hR, h0, h1, hfu, hin, hh => by
    rw [scanDo, JM.bind_ok (JM.get_apply _), if_neg (by omega)]
    cases hv; rfl
  | n + 1, fuel + 1, es, seen, s, a, F, i, hI, hv, hR, h0, h1, hfu, hin, hh => by
    rw [scanDo, JM.bind_ok (JM.get_apply _)]
    by_cases hlt : (seen.length : Int) < hits0
    · obtain ⟨u, hp, hm⟩ := chain_at hI h0 (by omega)
      have hll := hp.length_le
      have hnd := (orderFrom_spec hI (n + 1) i h0 (by omega)).1
      rw [orderFrom] at hh hv hR hnd
      simp only [List.length_append] at hh
      obtain ⟨s1, a1, F1, D, es1, seen1, w1, w2, w3, w4, w5, w6, w7, w8⟩ :=
        walkDo_spec inner _ es seen s a F _ u hI hv hp hnd hR (by omega)
      have hsame : orderFrom s1 n (i + 1) = orderFrom s n (i + 1) :=
        orderFrom_pres w5 w6 hI n (i + 1) (by omega) (by omega) w7
      rw [if_pos ⟨by omega, hlt⟩, JM.bind_ok (rd_ok _ ⟨h0, by omega⟩), JM.bind_ok w1]
      have e1 := w5.1
      have e2 := w5.2.1
      exact scanDo_spec hits0 inner n fuel es1 seen1 s1 a1 F1 (i + 1) w2 (by rw [hsame]; exact w3)
        (by rw [hsame]; exact w8) (by omega) (by omega) (by omega) (by omega) (by rw [hsame]; omega)
    · rw [if_neg (by omega)]
      have : orderFrom s (n + 1) i = [] := List.length_eq_zero_iff.1 (by omega)
      rw [this] at hv
      cases hv; rfl

theorem forEachDo_spec {k : Kind} {f : Consumer (Out K V) (Op K V)} {out : List (Out K V)}
    {t : Index K V} {c : Abs K V} (hI : Inv tight s a F) (hv : Visits k f [] [] s a (order s) out t c)
    {fuel : Nat} (hf : s.heads.len + s.nexts.len < fuel) : forEachDo k f fuel s = .ok out t := by
  unfold forEachDo
  rw [JM.bind_ok (JM.get_apply _)]
  have hol := order_length hI
  by_cases hz : s.size = 0
  · rw [if_pos hz]
    have : order s = [] := List.length_eq_zero_iff.1 (by omega)
    rw [this] at hv
    cases hv; rfl
  · rw [if_neg hz]
    refine scanDo_spec s.size fuel s.heads.len fuel [] [] s a F 0 hI hv ?_ (by omega) (by omega) (by omega) (by omega)
      (by
        have : ((orderFrom s s.heads.len 0).length : Int) = s.size := hol
        simp only [List.length_nil]; omega)
    intro x hx
    exact ⟨(order_perm hI).mem_iff.1 hx, by simp⟩

end Verif.Index
