import Verif.Props.IndexMap
import Verif.Proofs.ModCount
import Verif.Proofs.Rekey
/-! # Properties C35 - C41: iteration, clear, copyFrom -/
set_option linter.unusedSectionVars false
namespace Verif
open Index IndexSpec Iterating
variable {K V : Type} [Inhabited K] [Inhabited V]

/-! ## helpers -/

theorem step_entries {tight : Prop} {s : Index K V} {a : Abs K V} {F : List Int} (h : Inv tight s a F) :
    step .forEachEntry s = .ok (.ints (order s)) s := by
  simp only [step]
  rw [JM.bind_ok (forEachEntry_spec h)]; rfl

theorem order_nodup {tight : Prop} {s : Index K V} {a : Abs K V} {F : List Int} (h : Inv tight s a F) :
    (order s).Nodup := (order_perm h).nodup_iff.2 h.live_nodup

theorem mem_order {tight : Prop} {s : Index K V} {a : Abs K V} {F : List Int} (h : Inv tight s a F)
    {e : Int} : e ∈ order s ↔ ∃ r ∈ a.rows, r.entry = e := by
  rw [(order_perm h).mem_iff, Abs.live, List.mem_map]

/-! ## C35 forEach -/

/-- C35: there is one order of the associations held, each occurring once, in which `forEachEntry`
presents the entries, `forEach` the keys and `forEachValue` the values; none of them changes
anything. -/
theorem C35_each_once {exact : Prop} {s : Index K V} {a : Abs K V} (h : Reach exact s a) :
    ∃ rows : List (Row K V), rows.Perm a.rows ∧ (rows.map (·.entry)).Nodup ∧
      step .forEachEntry s = .ok (.ints (rows.map (·.entry))) s ∧
      step .forEach s = .ok (.keys (rows.map (·.key))) s ∧
      step .forEachValue s = .ok (.vals (rows.map (·.val))) s ∧
      result .size s = .ok (.int rows.length) ∧
      ∀ r ∈ rows, result (.getKeyAt r.entry) s = .ok (.key r.key) ∧
        result (.getValueAt r.entry) s = .ok (.val r.val) := by
  obtain ⟨F, hF⟩ := reach_inv h
  have hperm : ((order s).map fun e => (⟨e, s.keys.get e, s.values.get e⟩ : Row K V)).Perm a.rows := by
    have h1 := (order_perm hF).map fun e => (⟨e, s.keys.get e, s.values.get e⟩ : Row K V)
    have h2 : (a.live.map fun e => (⟨e, s.keys.get e, s.values.get e⟩ : Row K V)) = a.rows := by
      rw [Abs.live, List.map_map]
      conv => rhs; rw [← List.map_id a.rows]
      apply List.map_congr_left
      intro r hr
      have := hF.rowsOk r (.inl hr)
      cases r
      simp_all
    rwa [h2] at h1
  refine ⟨_, hperm, ?_, ?_, ?_, ?_, ?_, ?_⟩
  · rw [List.map_map]
    have : ((fun r : Row K V => r.entry) ∘ fun e => ⟨e, s.keys.get e, s.values.get e⟩) = id := rfl
    rw [this, List.map_id]
    exact order_nodup hF
  · rw [step_entries hF, List.map_map]
    have : ((fun r : Row K V => r.entry) ∘ fun e => ⟨e, s.keys.get e, s.values.get e⟩) = id := rfl
    rw [this, List.map_id]
  · simp only [step]
    rw [JM.bind_ok (forEach_spec hF), List.map_map]; rfl
  · simp only [step]
    rw [JM.bind_ok (forEachValue_spec hF), List.map_map]; rfl
  · rw [result_size hF, hperm.length_eq]
  · intro r hr
    have hr' := hperm.mem_iff.1 hr
    exact ⟨(step_spec hF (.getKeyAt r.entry) trivial).1 r (.inl hr') rfl,
      (step_spec hF (.getValueAt r.entry) trivial).1 r (.inl hr') rfl⟩

/- Non-vacuity: four keys in colliding buckets after a removal and growth. -/
example : ∃ s, exampleNew 2 1 1 = .ok s ∧
    (runM step s [Op.put 1 11, .put 9 99, .put 2 22, .remove 9, .put 17 5, .put 25 6,
      .forEachEntry, .forEach, .forEachValue]).1.drop 6 =
    [.ok (.ints [3, 1, 0, 2]), .ok (.keys [25, 17, 1, 2]), .ok (.vals [6, 5, 11, 22])] :=
  ⟨_, rfl, by decide +kernel⟩

/-! ## C36 removal during forEachEntry -/

/-- C36: if the callback of `forEachEntry` calls `removeAt` on the entries it is given that satisfy
`P`, it is still given every entry exactly once, the same as without removals; afterwards exactly
the entries not satisfying `P` are left, keys of kept entries look the same as before and the other
keys are gone. -/
theorem C36_remove_while_visiting {exact : Prop} {s : Index K V} {a : Abs K V} (h : Reach exact s a)
    (P : Int → Bool) :
    ∃ l t l', result .forEachEntry s = .ok (.ints l) ∧ l.Nodup ∧
      forEachWith (removingCallback P) s = .ok l t ∧ Reach exact t (a.removing P l) ∧
      result .forEachEntry t = .ok (.ints l') ∧ l'.Nodup ∧ (∀ e, e ∈ l' ↔ e ∈ l ∧ P e = false) ∧
      ∀ k e, result (.lookupEntry k) s = .ok (.int e) → e ≠ -1 →
        if P e then result (.containsKey k) t = .ok (.bool false) else SameFor k s t := by
  obtain ⟨F, hF⟩ := reach_inv h
  obtain ⟨t, F', h1, h2⟩ := forEach_removing P hF
  refine ⟨order s, t, order t, by unfold result; rw [step_entries hF]; rfl, order_nodup hF, h1,
    h.forEachRemoving h1, by unfold result; rw [step_entries h2]; rfl, order_nodup h2, ?_, ?_⟩
  · intro e
    rw [mem_order h2, mem_order hF]
    simp only [Abs.removing, List.mem_filter, Bool.not_eq_true']
    constructor
    · rintro ⟨r, ⟨g1, g2⟩, rfl⟩; exact ⟨⟨r, g1, rfl⟩, g2⟩
    · rintro ⟨⟨r, g1, rfl⟩, g2⟩; exact ⟨r, ⟨g1, g2⟩, rfl⟩
  · intro k e hl he
    rw [result_lookup hF] at hl
    simp at hl
    obtain ⟨r, hr, hf, hre, hq⟩ := entryOf_eq hF hl he
    split
    · rename_i hP
      rw [result_contains h2]
      have : (a.removing P (order s)).find k = none := by
        rw [find_none]
        intro r' hr'
        simp only [Abs.removing, List.mem_filter, Bool.not_eq_true'] at hr'
        by_cases hq' : a.eq k r'.key = true
        · rw [row_unique hF hr hr'.1 hq hq'] at hre
          rw [hre] at hr'
          simp [hP] at hr'
        · exact Bool.eq_false_iff.2 hq'
      rw [this]; rfl
    · rename_i hP
      apply same_of_find hF h2
      rw [hf]
      refine (find_of_mem h2 ?_ hq).symm
      simp only [Abs.removing, List.mem_filter]
      exact ⟨hr, by rw [hre]; simpa using hP⟩

/- Non-vacuity: every second entry is removed on the way. -/
example : ∃ s, exampleNew 2 1 1 = .ok s ∧
    let r := forEachWith (removingCallback fun e => e % 2 == 1)
      (final s [Op.put 1 11, .put 9 99, .put 2 22, .put 17 5, .put 25 6])
    r.out = .ok [4, 1, 0, 3, 2] ∧
    (runM step r.state [Op.forEachEntry, .size, .containsKey 9, .get 25]).1 =
      [.ok (.ints [4, 0, 2]), .ok (.int 3), .ok (.bool false), .ok (.val 6)] :=
  ⟨_, rfl, by decide +kernel⟩

/-! ## C37 clear -/

theorem determined_eq {o : Op K V} {a : Abs K V} {x y : Except Err (Out K V)} (hd : Determined o a)
    (hx : OkExact o x a) (hy : OkExact o y a) : x = y := by
  obtain ⟨hx, ex⟩ := hx
  obtain ⟨hy, ey⟩ := hy
  have addLike : ∀ k, (match a.find k with
      | some r => x = .ok (.int r.entry)
      | none => ∃ e, x = .ok (.int e) ∧ Fresh a e) → (match a.find k with
      | some r => y = .ok (.int r.entry)
      | none => ∃ e, y = .ok (.int e) ∧ Fresh a e) → (a.find k = none → x = .ok (.int a.alloc)) →
      (a.find k = none → y = .ok (.int a.alloc)) → x = y := by
    intro k h1 h2 h3 h4
    cases hf : a.find k with
    | some r => rw [hf] at h1 h2; exact h1.trans h2.symm
    | none => exact (h3 hf).trans (h4 hf).symm
  have row : ∀ e, e ∈ a.live ∨ e ∈ a.held → ∃ r, (r ∈ a.rows ∨ r ∈ a.reserved) ∧ r.entry = e := by
    rintro e (h | h)
    · obtain ⟨r, h1, h2⟩ := List.mem_map.1 h; exact ⟨r, .inl h1, h2⟩
    · obtain ⟨r, h1, h2⟩ := List.mem_map.1 h; exact ⟨r, .inr h1, h2⟩
  cases o with
  | add k => exact addLike k hx hy ex ey
  | put k v => exact addLike k hx hy ex ey
  | lookupEntry k => simp only [Ok] at hx hy; split at hx <;> simp_all
  | containsKey k => exact Eq.trans hx (Eq.symm hy)
  | get k => simp only [Ok] at hx hy; split at hx <;> simp_all
  | getOrDefault k d => simp only [Ok] at hx hy; split at hx <;> simp_all
  | remove k => simp only [Ok] at hx hy; split at hx <;> simp_all
  | removeAt e =>
    have hd : e ∈ a.live := hd
    simp only [Ok] at hx hy
    rcases hx with rfl | ⟨h1, _⟩
    · rcases hy with rfl | ⟨h1, _⟩
      · rfl
      · exact absurd hd h1
    · exact absurd hd h1
  | removeAtAndReserve e => exact Eq.trans hx (Eq.symm hy)
  | freeReservedEntry e => exact Eq.trans hx (Eq.symm hy)
  | getKeyAt e => obtain ⟨r, h1, h2⟩ := row e hd; exact (hx r h1 h2).trans (hy r h1 h2).symm
  | getValueAt e => obtain ⟨r, h1, h2⟩ := row e hd; exact (hx r h1 h2).trans (hy r h1 h2).symm
  | getValueAtOrDefault e d =>
    have hd : e ∈ a.live ∨ e ∈ a.held ∨ e < 0 := hd
    rcases hd with h | h | h
    · obtain ⟨r, h1, h2⟩ := row e (.inl h); exact (hx.1 r h1 h2).trans (hy.1 r h1 h2).symm
    · obtain ⟨r, h1, h2⟩ := row e (.inr h); exact (hx.1 r h1 h2).trans (hy.1 r h1 h2).symm
    · exact (hx.2 h).trans (hy.2 h).symm
  | putValueAt e v => exact (hx hd).trans (hy hd).symm
  | size => exact Eq.trans hx (Eq.symm hy)
  | isEmpty => exact Eq.trans hx (Eq.symm hy)
  | capacity => exact absurd hd id
  | forEach => exact absurd hd id
  | forEachEntry => exact absurd hd id
  | forEachValue => exact absurd hd id
  | clear => exact Eq.trans hx (Eq.symm hy)
  | setHashMethod f => exact Eq.trans hx (Eq.symm hy)
  | setEqMethod f => exact Eq.trans hx (Eq.symm hy)

/-- Two collections with the same ideal contents answer alike. -/
theorem same_results {tight : Prop} (ht : tight) (ops : List (Op K V)) :
    ∀ {s t : Index K V} {a : Abs K V} {F G : List Int}, Inv tight s a F → Inv tight t a G →
    AllDetermined a s ops → (runM step s ops).1 = (runM step t ops).1 := by
  induction ops with
  | nil => intros; rfl
  | cons o os ih =>
    intro s t a F G hs hG ⟨⟨hg, hd⟩, hrest⟩
    obtain ⟨_, h1, F', h2⟩ := step_spec hs o hg
    obtain ⟨_, g1, G', g2⟩ := step_spec hG o hg
    have he := determined_eq hd (h1 ht) (g1 ht)
    rw [← he] at g2
    simp only [runM]
    rw [he, ih h2 g2 hrest]

/-- C37: `clear` succeeds; afterwards the collection is one that contains nothing, and every history
from there has the results of a new empty collection. -/
theorem C37_clear {exact : Prop} {s : Index K V} {a : Abs K V} (h : Reach exact s a) :
    ∃ t, step .clear s = .ok .unit t ∧ Reach exact t (empty a.hash a.eq) ∧
      result .size t = .ok (.int 0) ∧ (∀ k, result (.containsKey k) t = .ok (.bool false)) ∧
      (∀ ops, Legal Ok (empty a.hash a.eq) ops (runM step t ops).1) ∧
      (exact → ∀ ops, Legal OkExact (empty a.hash a.eq) ops (runM step t ops).1) := by
  obtain ⟨F, hF⟩ := reach_inv h
  obtain ⟨t, h1, h2, _⟩ := clear_spec hF
  have hs : step .clear s = .ok .unit t := by
    simp only [step]; rw [JM.bind_ok h1]; rfl
  have hR : Reach exact t (empty a.hash a.eq) := by
    have := h.call .clear trivial
    rw [hs] at this
    exact this
  have h2' : Inv exact t (empty a.hash a.eq) [] := h2
  refine ⟨t, hs, hR, result_size h2', ?_, fun ops => legal ops h2', fun he ops => legal_exact he ops h2'⟩
  intro k
  rw [result_contains h2']; rfl

/-- C37: after `clear` the collection answers every call (whose result does not depend on iteration
order or on unused entries) exactly as a newly constructed one. -/
theorem C37_like_new {s : Index K V} {a : Abs K V} (h : Reach True s a) {ic : Int} {num den : Nat}
    {s0 : Index K V} (hnew : Index.new a.hash a.eq ic num den = .ok s0)
    (hexact : (den : Int) ≤ 2 * nextPowerOf2 ic * num) (ops : List (Op K V))
    (hg : AllDetermined (empty a.hash a.eq) s0 ops) :
    (runM step s (.clear :: ops)).1 = .ok .unit :: (runM step s0 ops).1 := by
  obtain ⟨t, h1, h2, _⟩ := C37_clear h
  obtain ⟨F, hF⟩ := reach_inv h2
  obtain ⟨G, hG⟩ := reach_inv (Reach.new (exact := True) hnew (fun _ => hexact))
  simp only [runM, h1, Res.state_ok, Res.out_ok]
  rw [same_results trivial ops hG hF hg]

/-- C37 (part): if the collection is not empty, `clear` also wipes the keys and values of all entries
that were in use. -/
theorem C37_wiped_partial {exact : Prop} {s : Index K V} {a : Abs K V} (h : Reach exact s a)
    (hne : result .size s ≠ .ok (.int 0)) :
    ∃ t, step .clear s = .ok .unit t ∧ ∀ e, e ∈ a.live ∨ e ∈ a.held ∨ e ∈ a.free →
      result (.getKeyAt e) t = .ok (.key default) ∧ result (.getValueAt e) t = .ok (.val default) := by
  obtain ⟨F, hF⟩ := reach_inv h
  rw [result_size hF] at hne
  have hpos : s.size > 0 := by
    have := hF.size
    have : (a.rows.length : Int) ≠ 0 := fun hh => hne (by rw [hh])
    omega
  have hn := hF.next_le
  have hk := hF.klen; have hv := hF.vlen; have hl := hF.nlen; have hnx := hF.next
  have h0 := hF.next0; have hm := hF.maxHead.1
  have fill_ok : ∀ {α : Type} (x : Arr α) (v : α) (n : Int) (t : Index K V), 0 ≤ n → n ≤ x.len →
      ∃ y, fill x v 0 n t = .ok y t ∧ y.len = x.len ∧ ∀ i, 0 ≤ i → i < n → y.get i = v := by
    intro α x v n t h1 h2
    unfold fill
    by_cases hz : n ≤ 0
    · exact ⟨x, by simp only; rw [if_pos hz], rfl, fun i _ _ => by omega⟩
    · refine ⟨x.fillRange v 0 n, by simp only; rw [if_neg hz, if_pos ⟨by omega, by omega⟩], rfl, ?_⟩
      intro i h3 h4
      rw [Arr.get_fillRange, if_pos ⟨h3, by omega⟩]
  simp only [step]
  unfold clear
  rw [JM.bind_apply, JM.bind_ok (JM.get_apply _), JM.when_pos hpos]
  obtain ⟨y1, p1, p2, p3⟩ := fill_ok s.heads (-1) (min s.heads.len (s.maxHead + 1)) s (by omega) (by omega)
  obtain ⟨y2, q1, q2, q3⟩ := fill_ok s.nexts (-1) (min s.nexts.len s.nextUnusedEntry)
    { s with heads := y1 } (by omega) (by omega)
  obtain ⟨y3, r1, r2, r3⟩ := fill_ok s.keys default (min s.nextUnusedEntry s.keys.len)
    { s with heads := y1, nexts := y2 } (by omega) (by omega)
  obtain ⟨y4, u1, u2, u3⟩ := fill_ok s.values default (min s.nextUnusedEntry s.values.len)
    { s with heads := y1, nexts := y2, keys := y3 } (by omega) (by omega)
  rw [JM.bind_ok (show _ = Res.ok () { s with heads := y1, nexts := y2, keys := y3, values := y4, size := 0 } by
    rw [JM.bind_ok p1, JM.bind_ok (JM.modify_apply _ _), JM.bind_ok q1, JM.bind_ok (JM.modify_apply _ _),
      JM.bind_ok r1, JM.bind_ok (JM.modify_apply _ _), JM.bind_ok u1, JM.bind_ok (JM.modify_apply _ _)]
    rfl), JM.modify_apply]
  refine ⟨_, rfl, ?_⟩
  intro e he
  have hr : 0 ≤ e ∧ e < a.next := (hF.mem_range e).1 he
  unfold result
  simp only [step, getKeyAt, getValueAt]
  rw [JM.bind_ok (rd_ok _ (by simp only; omega)), JM.bind_ok (rd_ok _ (by simp only; omega))]
  simp only
  rw [r3 e hr.1 (by omega), u3 e hr.1 (by omega)]
  exact ⟨rfl, rfl⟩

/- Non-vacuity: a used collection, cleared and used again. -/
example : ∃ s, exampleNew 2 1 1 = .ok s ∧
    (runM step s [Op.put 1 11, .put 9 99, .remove 1, .clear, .size, .getValueAt 1, .getKeyAt 1,
      .add 9, .get 9]).1.drop 3 =
    [.ok .unit, .ok (.int 0), .ok (.val 0), .ok (.key 0), .ok (.int 0), .ok (.val 0)] :=
  ⟨_, rfl, by decide +kernel⟩

/-- C37 is not quite true: `clear` on a collection of size 0 does not wipe anything, so the value of an
entry reserved before is still there. -/
theorem C37_stale_refuted : ∃ s, exampleNew 2 1 1 = .ok s ∧
    (runM step s [Op.put 1 11, .removeAtAndReserve 0, .clear, .size, .getKeyAt 0, .getValueAt 0]).1 =
    [.ok (.int 0), .ok .unit, .ok .unit, .ok (.int 0), .ok (.key 1), .ok (.val 11)] :=
  ⟨_, rfl, by decide +kernel⟩

/-! ## C38 copyFrom -/

/-- What a copy has in common with its source, whatever its own functions are. -/
theorem copy_contents {tight tight' : Prop} {s src : Index K V} {a b : Abs K V} {F G : List Int}
    (hF : Inv tight s a F) (hG : Inv tight' src b G) (hcap : src.capacity < 2 ^ 29) :
    ∃ t, copyFrom src s = .ok () t ∧ Inv tight' (rekey src.hashFunc src.equalFunc t) b G ∧
      t.hashFunc = s.hashFunc ∧ t.equalFunc = s.equalFunc ∧
      result .size t = result .size src ∧ result .forEachEntry t = result .forEachEntry src ∧
      result .forEach t = result .forEach src ∧ result .forEachValue t = result .forEachValue src ∧
      ∀ l, result .forEachEntry src = .ok (.ints l) → ∀ e ∈ l,
        result (.getKeyAt e) t = result (.getKeyAt e) src ∧
        result (.getValueAt e) t = result (.getValueAt e) src := by
  obtain ⟨u, h1, h2, _, hl, hn, hh, hx⟩ := copyFrom_lens (s := rekey src.hashFunc src.equalFunc s)
    hF.cap hF.nlen hF.klen hF.vlen hG rfl rfl hcap
  have hc : copyFrom src (rekey s.hashFunc s.equalFunc (rekey src.hashFunc src.equalFunc s)) = _ :=
    copyFrom_rekey src (rekey src.hashFunc src.equalFunc s)
  rw [h1] at hc
  have ht : Inv tight' (rekey src.hashFunc src.equalFunc (rekey s.hashFunc s.equalFunc u)) b G := by
    have e1 : u.hashFunc = src.hashFunc := by rw [h2.hash, hG.hash]
    have e2 : u.equalFunc = src.equalFunc := by rw [h2.eq, hG.eq]
    rw [← e1, ← e2]
    exact h2
  have hor := order_copy hG hl hn hh hx
  have hres : ∀ {o : Op K V}, Keyless o → result o (rekey s.hashFunc s.equalFunc u) = result o u := by
    intro o ho
    unfold result
    rw [step_rekey ho u, Res.onState_out]
  have hrow : ∀ e ∈ order src, u.keys.get e = src.keys.get e ∧ u.values.get e = src.values.get e := by
    intro e he
    obtain ⟨r, hr, rfl⟩ := (mem_order hG).1 he
    exact ⟨(h2.rowsOk r (.inl hr)).1.trans (hG.rowsOk r (.inl hr)).1.symm,
      (h2.rowsOk r (.inl hr)).2.trans (hG.rowsOk r (.inl hr)).2.symm⟩
  refine ⟨rekey s.hashFunc s.equalFunc u, hc, ht, rfl, rfl, ?_, ?_, ?_, ?_, ?_⟩
  · rw [hres (o := .size) trivial, result_size h2, result_size hG]
  · rw [hres (o := .forEachEntry) trivial]
    unfold result
    rw [step_entries h2, step_entries hG, hor]; rfl
  · rw [hres (o := .forEach) trivial]
    unfold result
    simp only [step]
    rw [JM.bind_ok (forEach_spec h2), JM.bind_ok (forEach_spec hG), hor,
      List.map_congr_left fun e he => (hrow e he).1]; rfl
  · rw [hres (o := .forEachValue) trivial]
    unfold result
    simp only [step]
    rw [JM.bind_ok (forEachValue_spec h2), JM.bind_ok (forEachValue_spec hG), hor,
      List.map_congr_left fun e he => (hrow e he).2]; rfl
  · intro l hl e he
    unfold result at hl
    rw [step_entries hG] at hl
    injection hl with hl; injection hl with hl
    subst hl
    rw [hres (o := .getKeyAt e) trivial, hres (o := .getValueAt e) trivial]
    obtain ⟨r, hr, rfl⟩ := (mem_order hG).1 he
    exact ⟨((step_spec h2 (.getKeyAt r.entry) trivial).1 r (.inl hr) rfl).trans
        ((step_spec hG (.getKeyAt r.entry) trivial).1 r (.inl hr) rfl).symm,
      ((step_spec h2 (.getValueAt r.entry) trivial).1 r (.inl hr) rfl).trans
        ((step_spec hG (.getValueAt r.entry) trivial).1 r (.inl hr) rfl).symm⟩

/-- C38 (part): if both collections use the same hash and equality functions, `dst.copyFrom(src)`
succeeds whatever `dst` held before; the result contains what `src` contains, every key looks the
same, iterations present the same things in the same order, and every history from there has results
that are right for those contents. -/
theorem C38_copy_partial {exact exact' : Prop} {s src : Index K V} {a b : Abs K V}
    (hs : Reach exact' s a) (hb : Reach exact src b) (hhash : a.hash = b.hash) (heq : a.eq = b.eq)
    (hcap : src.capacity < 2 ^ 29) :
    ∃ t l, copyFrom src s = .ok () t ∧ Reach exact t b ∧ (∀ k, SameFor k src t) ∧
      result .size t = result .size src ∧
      result .forEachEntry src = .ok (.ints l) ∧ result .forEachEntry t = .ok (.ints l) ∧
      result .forEach t = result .forEach src ∧ result .forEachValue t = result .forEachValue src ∧
      (∀ e ∈ l, result (.getKeyAt e) t = result (.getKeyAt e) src ∧
        result (.getValueAt e) t = result (.getValueAt e) src) ∧
      ∀ ops, Legal Ok b ops (runM step t ops).1 := by
  obtain ⟨F, hF⟩ := reach_inv hs
  obtain ⟨G, hG⟩ := reach_inv hb
  obtain ⟨t, h1, h2, h3, h4, h5, h6, h7, h8, h9⟩ := copy_contents hF hG hcap
  have h2' : Inv exact t b G := by
    have e1 : src.hashFunc = t.hashFunc := by rw [h3, hF.hash, hG.hash, hhash]
    have e2 : src.equalFunc = t.equalFunc := by rw [h4, hF.eq, hG.eq, heq]
    rw [e1, e2] at h2
    exact h2
  have hl : result .forEachEntry src = .ok (.ints (order src)) := by
    unfold result; rw [step_entries hG]; rfl
  exact ⟨t, order src, h1, Reach.copy hs hb hhash heq hcap h1,
    fun k => same_of_find hG h2' rfl, h5, hl, h6.trans hl, h7, h8, h9 _ hl, fun ops => legal ops h2'⟩

/-- C38 (part): even if the two collections use different hash and equality functions,
`dst.copyFrom(src)` succeeds, and whatever does not take a key is right: size, iterations (in the
source's order), keys and values at entries, and every history of such calls, including removals by
entry, has the results for the source's contents; once a history of such calls has emptied the copy, it
works with its own functions. -/
theorem C38_own_functions_partial {exact exact' : Prop} {s src : Index K V} {a b : Abs K V}
    (hs : Reach exact' s a) (hb : Reach exact src b) (hcap : src.capacity < 2 ^ 29) :
    ∃ t l, copyFrom src s = .ok () t ∧
      result .size t = result .size src ∧
      result .forEachEntry src = .ok (.ints l) ∧ result .forEachEntry t = .ok (.ints l) ∧
      result .forEach t = result .forEach src ∧ result .forEachValue t = result .forEachValue src ∧
      (∀ e ∈ l, result (.getKeyAt e) t = result (.getKeyAt e) src ∧
        result (.getValueAt e) t = result (.getValueAt e) src) ∧
      ∀ ops, (∀ o ∈ ops, Keyless o) → Legal Ok b ops (runM step t ops).1 ∧
        (Guarded b t ops → (ideal b t ops).rows = [] → ∀ ops',
          Legal Ok { ideal b t ops with hash := a.hash, eq := a.eq } ops'
            (runM step (final t ops) ops').1) := by
  obtain ⟨F, hF⟩ := reach_inv hs
  obtain ⟨G, hG⟩ := reach_inv hb
  obtain ⟨t, h1, h2, h3, h4, h5, h6, h7, h8, h9⟩ := copy_contents hF hG hcap
  have hl : result .forEachEntry src = .ok (.ints (order src)) := by
    unfold result; rw [step_entries hG]; rfl
  refine ⟨t, order src, h1, h5, hl, h6.trans hl, h7, h8, h9 _ hl, fun ops ho => ?_⟩
  obtain ⟨g1, g2⟩ := runM_rekey (h := src.hashFunc) (q := src.equalFunc) ops t ho
  refine ⟨by rw [← g1]; exact legal ops h2, fun hg hr ops' => ?_⟩
  obtain ⟨F', hI⟩ := keyless_inv ops h2 ho hg
  have := hI.rekey_nil (h := a.hash) (q := a.eq) hr
  have e : rekey a.hash a.eq (rekey src.hashFunc src.equalFunc (final t ops)) = final t ops := by
    have k1 : ∀ u : Index K V, rekey a.hash a.eq (rekey src.hashFunc src.equalFunc u) =
        rekey a.hash a.eq u := fun _ => rfl
    have k2 : t = rekey a.hash a.eq t := by
      rw [← hF.hash, ← hF.eq, ← h3, ← h4]; rfl
    rw [k1]
    conv => rhs; rw [k2]
    exact (runM_rekey (h := a.hash) (q := a.eq) ops t ho).2.symm
  rw [e] at this
  exact legal ops' this

/-- C38 (part): from then on both collections answer the same calls alike; in particular they hand out
the same entries.  (The two are separate objects: a call on one does not mention the other.) -/
theorem C38_agree_partial {exact' : Prop} {s src : Index K V} {a b : Abs K V}
    (hs : Reach exact' s a) (hb : Reach True src b) (hhash : a.hash = b.hash) (heq : a.eq = b.eq)
    (hcap : src.capacity < 2 ^ 29) (ops : List (Op K V)) (hg : AllDetermined b src ops) :
    ∃ t, copyFrom src s = .ok () t ∧ (runM step t ops).1 = (runM step src ops).1 := by
  obtain ⟨F, hF⟩ := reach_inv hs
  obtain ⟨G, hG⟩ := reach_inv hb
  obtain ⟨t, h1, h2, _⟩ := copyFrom_spec hF hG (by rw [hF.hash, hG.hash, hhash])
    (by rw [hF.eq, hG.eq, heq]) hcap
  exact ⟨t, h1, (same_results trivial ops hG h2 hg).symm⟩

/- Non-vacuity: a large, used destination gets the contents of a small source. -/
example : ∃ s s', exampleNew 2 1 1 = .ok s ∧ exampleNew 64 3 4 = .ok s' ∧
    let src := final s [Op.put 1 11, .put 9 99, .put 17 5, .remove 9]
    let r := copyFrom src (final s' [Op.put 50 1, .put 51 2, .put 52 3, .put 53 4])
    r.out = .ok () ∧
    (runM step r.state [Op.size, .get 1, .get 17, .containsKey 50, .put 9 7, .put 3 8, .get 9]).1 =
    (runM step src [Op.size, .get 1, .get 17, .containsKey 50, .put 9 7, .put 3 8, .get 9]).1 ∧
    (runM step r.state [Op.size, .get 1, .get 17, .containsKey 50, .put 9 7, .put 3 8, .get 9]).1 =
    [.ok (.int 2), .ok (.val 11), .ok (.val 5), .ok (.bool false), .ok (.int 1), .ok (.int 3),
      .ok (.val 7)] :=
  ⟨_, _, rfl, rfl, by decide +kernel⟩

/-- C38 is false if the source uses its own hash function: `copyFrom` does not copy it, so the copy
has size 1 but finds nothing. -/
theorem C38_hash_refuted : ∃ s s', exampleNew 4 1 1 = .ok s ∧ exampleNew 4 1 1 = .ok s' ∧
    let src := final s [Op.setHashMethod fun k => BitVec.ofInt 32 (k + 1), .put 1 11]
    let r := copyFrom src s'
    r.out = .ok () ∧ result (.get 1) src = .ok (.val 11) ∧ result .size r.state = .ok (.int 1) ∧
    result (.get 1) r.state = .error .keyNotFound :=
  ⟨_, _, rfl, rfl, by decide +kernel⟩

/- Non-vacuity: the source hashes differently; the copy is read and emptied entry by entry, then used
with its own functions. -/
example : ∃ s s', exampleNew 4 1 1 = .ok s ∧ exampleNew 8 1 1 = .ok s' ∧
    let src := final s [Op.setHashMethod fun k => BitVec.ofInt 32 (k + 1), .put 1 11, .put 2 22, .put 5 55]
    let r := copyFrom src (final s' [Op.put 40 1])
    r.out = .ok () ∧
    (runM step r.state [Op.forEach, .removeAt 1, .forEachValue, .removeAt 0, .removeAt 2, .size,
      .put 7 77, .get 7]).1 =
    [.ok (.keys [5, 1, 2]), .ok .unit, .ok (.vals [55, 11]), .ok .unit, .ok .unit, .ok (.int 0),
      .ok (.int 2), .ok (.val 77)] :=
  ⟨_, _, rfl, rfl, by decide +kernel⟩

/-! ## C39, C40 iterators -/

theorem next_run {tight : Prop} : ∀ (n : Nat) (b : Int) (s : Iterating K V) (c : Cursor K V), CInv tight b s c →
    0 ≤ b → b + n ≤ 1073741824 →
    (runM itStep s (List.replicate n .next)).1 = (List.range n).map (fun i => .ok (c.todo[i]?)) ∧
    (runM itStep s (List.replicate n .next)).2.map = s.map
  | 0, _, s, c, _, _, _ => ⟨rfl, rfl⟩
  | n + 1, b, s, c, h, h0, hb => by
    have h1 := cursor_step h0 (by omega) s c .next h
    have hm : (itStep .next s).state.map = s.map := by
      rcases next_cases h0 (by omega) h with ⟨_, it', g1, _⟩ | ⟨it', _, _, _, _, g1, _⟩
      · rw [itStep_next_false g1]; rfl
      · rw [itStep_next_true g1]; rfl
    obtain ⟨h2, h3⟩ := next_run n _ _ _ h1.2 (by omega) (by omega)
    simp only [List.replicate_succ, runM]
    refine ⟨?_, by rw [h3, hm]⟩
    rw [h2, h1.1, List.range_succ_eq_map, List.map_cons, List.map_map]
    cases c with | mk pos todo a =>
    cases todo with
    | nil =>
      simp only [Cursor.step, List.getElem?_nil]
      rfl
    | cons e l => simp [Cursor.step]

/-- C39: calling `next()` over and over on a new iterator yields, at the `i`-th call, the `i`-th entry
of `forEachEntry` (each live entry exactly once), then `false`, during the first 2^30 calls (C104 is about more); the
collection does not change. -/
theorem C39_iterates {exact : Prop} {s : Index K V} {a : Abs K V} (h : Reach exact s a) (it : Iter) :
    ∃ l t, result .forEachEntry s = .ok (.ints l) ∧ l.Nodup ∧ (∀ e, e ∈ l ↔ e ∈ a.live) ∧
      reset ⟨s, it⟩ = .ok () t ∧
      ∀ n : Nat, n ≤ 2 ^ 30 → (runM itStep t (List.replicate n .next)).1 = (List.range n).map (fun i => .ok l[i]?) ∧
        (runM itStep t (List.replicate n .next)).2.map = s := by
  obtain ⟨F, hF⟩ := reach_inv h
  obtain ⟨it', h1, h2⟩ := cinv_reset hF it
  refine ⟨order s, _, by unfold result; rw [step_entries hF]; rfl, order_nodup hF,
    fun e => (order_perm hF).mem_iff, h1, fun n hn => ?_⟩
  exact next_run n 0 _ _ h2 (by omega) (by
    have e : (2 : Nat) ^ 30 = 1073741824 := by decide
    omega)

/-- C40: the client loop `while (it.next()) if (P(it.currentEntry())) it.remove()` sees every entry
exactly once, whatever it removes; afterwards exactly the entries not satisfying `P` are left. -/
theorem C40_remove {exact : Prop} {s : Index K V} {a : Abs K V} (h : Reach exact s a) (it : Iter)
    (P : Int → Bool) (fuel : Nat) (hf : s.size < fuel) :
    ∃ l t l', result .forEachEntry s = .ok (.ints l) ∧ l.Nodup ∧
      (do reset; drive P fuel) ⟨s, it⟩ = .ok l t ∧ Reach exact t.map (a.removing P l) ∧
      result .forEachEntry t.map = .ok (.ints l') ∧ l'.Nodup ∧
      (∀ e, e ∈ l' ↔ e ∈ l ∧ P e = false) ∧
      ∀ k e, result (.lookupEntry k) s = .ok (.int e) → e ≠ -1 →
        if P e then result (.containsKey k) t.map = .ok (.bool false) else SameFor k s t.map := by
  obtain ⟨F, hF⟩ := reach_inv h
  obtain ⟨t, F', h1, _, h2⟩ := iterate_removing P hF it hf
  refine ⟨order s, t, order t.map, by unfold result; rw [step_entries hF]; rfl, order_nodup hF, h1,
    h.iterate hf h1, by unfold result; rw [step_entries h2]; rfl, order_nodup h2, ?_, ?_⟩
  · intro e
    rw [mem_order h2, mem_order hF]
    simp only [Abs.removing, List.mem_filter, Bool.not_eq_true']
    constructor
    · rintro ⟨r, ⟨g1, g2⟩, rfl⟩; exact ⟨⟨r, g1, rfl⟩, g2⟩
    · rintro ⟨⟨r, g1, rfl⟩, g2⟩; exact ⟨r, ⟨g1, g2⟩, rfl⟩
  · intro k e hl he
    rw [result_lookup hF] at hl
    simp at hl
    obtain ⟨r, hr, hf, hre, hq⟩ := entryOf_eq hF hl he
    split
    · rename_i hP
      rw [result_contains h2]
      have : (a.removing P (order s)).find k = none := by
        rw [find_none]
        intro r' hr'
        simp only [Abs.removing, List.mem_filter, Bool.not_eq_true'] at hr'
        by_cases hq' : a.eq k r'.key = true
        · rw [row_unique hF hr hr'.1 hq hq'] at hre
          rw [hre] at hr'
          simp [hP] at hr'
        · exact Bool.eq_false_iff.2 hq'
      rw [this]; rfl
    · rename_i hP
      apply same_of_find hF h2
      rw [hf]
      refine (find_of_mem h2 ?_ hq).symm
      simp only [Abs.removing, List.mem_filter]
      exact ⟨hr, by rw [hre]; simpa using hP⟩

/-- C40: every sequence of at most 2^30 `next` and `remove` calls on a new iterator, in any order, has the results
of the ideal cursor (Spec/Cursor.lean) over the list of entries, and leaves a collection with the
contents the ideal cursor says, on which every history has right results. -/
theorem C40_protocol {exact : Prop} {s : Index K V} {a : Abs K V} (h : Reach exact s a) (it : Iter)
    (ops : List ItOp) (hlen : ops.length ≤ 2 ^ 30) :
    ∃ l t, result .forEachEntry s = .ok (.ints l) ∧ reset ⟨s, it⟩ = .ok () t ∧
      (runM itStep t ops).1 = (runS Cursor.step ⟨.start, l, a⟩ ops).1 ∧
      Reach exact (runM itStep t ops).2.map (runS Cursor.step ⟨.start, l, a⟩ ops).2.map ∧
      ∀ ops', Legal Ok (runS Cursor.step ⟨.start, l, a⟩ ops).2.map ops'
        (runM step (runM itStep t ops).2.map ops').1 := by
  obtain ⟨F, hF⟩ := reach_inv h
  obtain ⟨it', h1, h2⟩ := cinv_reset hF it
  have e : (2 : Nat) ^ 30 = 1073741824 := by decide
  obtain ⟨h3, ⟨G, h4⟩, _⟩ := cursor_run ops 0 _ _ h2 (by omega) (by omega)
  refine ⟨order s, ⟨s, it'⟩, by unfold result; rw [step_entries hF]; rfl, h1, h3, ?_,
    fun ops' => legal ops' h4⟩
  have := Reach.iterating it ops (by omega) h (l := order s) (by rw [step_entries hF]; rfl)
  rw [h1] at this
  exact this

/-- An iterator just created. -/
def exampleIter : Iter := ⟨false, false, 0, 0, 0, 0, 0⟩

/- Non-vacuity: removals at various places, including a second remove and a remove at the end. -/
example : ∃ s, exampleNew 2 1 1 = .ok s ∧
    let s := final s [Op.put 1 11, .put 9 99, .put 2 22, .put 17 5]
    let t := (reset (⟨s, exampleIter⟩ : Iterating Int Int)).state
    let r := runM itStep t [.next, .next, .remove, .remove, .next, .next, .remove, .next, .remove]
    result .forEachEntry s = .ok (.ints [3, 0, 1, 2]) ∧
    r.1 = [.ok (some 3), .ok (some 0), .ok none, .error .illegalState, .ok (some 1), .ok (some 2),
      .ok none, .ok none, .error .indexOutOfBounds] ∧
    result .forEachEntry r.2.map = .ok (.ints [3, 1]) :=
  ⟨_, rfl, by decide +kernel⟩

/-! ## C41 fail-fast -/

/-- C41 (part): take an iterator in any state (after any calls of `next` and `remove`, at most 2^30), then make any
calls on the collection, at least one of which changes its size, none of which is `clear`, and fewer
than 2^31 in number: the iterator's `next` and `remove` throw ConcurrentModificationException and
change nothing. -/
theorem C41_fail_fast_partial {exact : Prop} {s : Index K V} {a : Abs K V} (h : Reach exact s a)
    (it : Iter) (its : List ItOp) (hits : its.length ≤ 2 ^ 30) (ops pre post : List (Op K V)) (o : Op K V)
    (hops : ops = pre ++ o :: post) (hlen : ops.length < 2 ^ 31) (hclear : ∀ o ∈ ops, o ≠ .clear) :
    ∃ t, reset ⟨s, it⟩ = .ok () t ∧
      let u := (runM itStep t its).2
      (result .size (final u.map (pre ++ [o])) ≠ result .size (final u.map pre) →
        let v : Iterating K V := ⟨final u.map ops, u.it⟩
        itStep .next v = .err .concurrentModification v ∧
        itStep .remove v = .err .concurrentModification v) := by
  obtain ⟨F, hF⟩ := reach_inv h
  obtain ⟨it', h1, h2⟩ := cinv_reset hF it
  have e : (2 : Nat) ^ 30 = 1073741824 := by decide
  have h3 := (cursor_run its 0 _ _ h2 (by omega) (by omega)).2.mod
  refine ⟨_, h1, ?_⟩
  intro u hsz v
  obtain ⟨d, g1, g2, g3, g4⟩ := moved_history ops u.map hclear
  have hd := g4 ⟨pre, o, post, hops, fun hh => hsz (by
    unfold result
    simp only [step, getSize, JM.bind_apply, JM.get_apply, JM.pure_apply, Res.out_ok]
    rw [hh])⟩
  have e31 : (2 : Nat) ^ 31 = 2147483648 := by decide
  rw [e31] at hlen
  have hne : v.map.modificationCount ≠ v.it.internalModCount := by
    show (final u.map ops).modificationCount ≠ u.it.internalModCount
    rw [h3]
    show _ ≠ u.map.modificationCount
    omega
  constructor
  · simp only [itStep]
    apply JM.bind_err
    unfold Iterating.next
    rw [JM.bind_ok (JM.get_apply _), if_pos hne]; rfl
  · simp only [itStep]
    apply JM.bind_err
    unfold Iterating.remove
    rw [JM.bind_ok (JM.get_apply _), if_pos hne]; rfl

/- Non-vacuity: a removal and an addition (the size is as before) are noticed. -/
example : ∃ s, exampleNew 2 1 1 = .ok s ∧
    let s := final s [Op.put 1 11, .put 9 99, .put 2 22, .put 17 5]
    let u := (runM itStep (reset (⟨s, exampleIter⟩ : Iterating Int Int)).state [.next, .remove, .next]).2
    let v : Iterating Int Int := ⟨final u.map [Op.remove 1, .get 2, .add 5], u.it⟩
    result .size (final u.map [Op.remove 1]) ≠ result .size (final u.map []) ∧
    (itStep .next v).out = .error .concurrentModification ∧
    (itStep .remove v).out = .error .concurrentModification :=
  ⟨_, rfl, by decide +kernel⟩

/-- C41 is false if `clear` is among the calls: it resets the modification count to 0, so the iterator
does not notice and goes on in a collection with other contents. -/
theorem C41_clear_refuted : ∃ s, exampleNew 4 1 1 = .ok s ∧
    let s := final s [Op.put 1 11, .put 2 99]
    let u := (runM itStep (reset (⟨s, exampleIter⟩ : Iterating Int Int)).state [.next]).2
    let v : Iterating Int Int := ⟨final u.map [Op.clear, .put 6 1, .put 7 1], u.it⟩
    (itStep .next v).out = .ok (some 0) ∧ (itStep .remove v).out = .ok none :=
  ⟨_, rfl, by decide +kernel⟩

end Verif
