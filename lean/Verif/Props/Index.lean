import Verif.Proofs.Reach
/-! # Properties C27 - C34, C43, C44: the indexed sets and maps

`Reach exact s a` (Spec/IndexReach.lean) says that a program can hold the collection `s`; `a` is what
the calls and their results say it contains. An indexed set is the map at `V := Unit`. -/
set_option linter.unusedSectionVars false
namespace Verif
open Index IndexSpec
variable {K V : Type} [Inhabited K] [Inhabited V]

/-! ## helpers about histories -/

theorem final_append (s : Index K V) (os ps : List (Op K V)) :
    final s (os ++ ps) = final (final s os) ps := by simp [final, runM_append]

theorem guarded_append (os : List (Op K V)) : ∀ (a : Abs K V) (s : Index K V) (ps : List (Op K V)),
    Guarded a s (os ++ ps) ↔ Guarded a s os ∧ Guarded (ideal a s os) (final s os) ps := by
  induction os with
  | nil => intro a s ps; simp [Guarded, ideal, final, runM]
  | cons o os ih =>
    intro a s ps
    simp only [List.cons_append, Guarded, ih, ideal, and_assoc]
    rfl

theorem ideal_append (os : List (Op K V)) : ∀ (a : Abs K V) (s : Index K V) (ps : List (Op K V)),
    ideal a s (os ++ ps) = ideal (ideal a s os) (final s os) ps := by
  induction os with
  | nil => intro a s ps; simp [ideal, final, runM]
  | cons o os ih => intro a s ps; simp only [List.cons_append, ideal, ih]; rfl

theorem containsKey_out {tight : Prop} {s : Index K V} {a : Abs K V} {F : List Int}
    (h : Inv tight s a F) (k : K) : containsKey k s = .ok (a.find k).isSome s := by
  unfold containsKey
  rw [JM.bind_ok (lookupEntry_spec h k)]
  have := entryOf_eq_neg h k
  cases hf : a.find k with
  | none => simp [this.2 hf]
  | some r =>
    have : entryOf a k ≠ -1 := fun hh => by simp [this.1 hh] at hf
    simp [this]

theorem find_isSome {a : Abs K V} {k : K} :
    (a.find k).isSome = true ↔ ∃ r ∈ a.rows, a.eq k r.key = true := by
  unfold Abs.find
  rw [List.find?_isSome]

theorem snoc_cases {α : Type} : ∀ l : List α, l = [] ∨ ∃ l' x, l = l' ++ [x]
  | [] => .inl rfl
  | x :: l => by
    rcases snoc_cases l with rfl | ⟨l', y, rfl⟩
    · exact .inr ⟨[], x, rfl⟩
    · exact .inr ⟨x :: l', y, rfl⟩

theorem addedAndKept_snoc (eq : K → K → Bool) (k : K) (s : Index K V) (ops : List (Op K V))
    (o : Op K V) : AddedAndKept eq k s (ops ++ [o]) ↔
      Adds eq k o ∨ (AddedAndKept eq k s ops ∧ ¬ Drops eq k (final s ops) o) := by
  constructor
  · rintro ⟨pre, o', post, h1, h2, h3⟩
    rcases snoc_cases post with rfl | ⟨post', x, rfl⟩
    · have := List.append_inj' h1 rfl
      simp at this
      exact .inl (this.2 ▸ h2)
    · have e : ops ++ [o] = (pre ++ o' :: post') ++ [x] := by simp [h1]
      have := List.append_inj' e rfl
      simp only [List.cons.injEq, and_true] at this
      obtain ⟨e1, e2⟩ := this
      subst e2
      refine .inr ⟨⟨pre, o', post', e1, h2, ?_⟩, ?_⟩
      · rintro p1 o'' p2 rfl
        exact h3 p1 o'' (p2 ++ [o]) (by simp)
      · rw [e1]
        exact h3 post' o [] rfl
  · rintro (h | ⟨⟨pre, o', post, h1, h2, h3⟩, h4⟩)
    · exact ⟨ops, o, [], rfl, h, by simp⟩
    · refine ⟨pre, o', post ++ [o], by simp [h1], h2, ?_⟩
      intro p1 o'' p2 e
      rcases snoc_cases p2 with rfl | ⟨p2', x, rfl⟩
      · have := List.append_inj' e rfl
        simp only [List.cons.injEq, and_true] at this
        obtain ⟨e1, e2⟩ := this
        subst e2
        rw [← e1, ← h1]; exact h4
      · have e' : post ++ [o] = (p1 ++ o'' :: p2') ++ [x] := by simp [e]
        have := List.append_inj' e' rfl
        exact h3 p1 o'' p2' this.1

/-! ## C27 membership -/

/-- C27 (and, through `Ok`, the results of all calls): for every hash function, key equality,
initial capacity and load factor, every result of every history is the one an ideal map allows, as
long as the caller respects `Guard`. -/
theorem C27_results_legal (hash : K → BitVec 32) (eq : K → K → Bool) {ic : Int} {num den : Nat}
    {s : Index K V} (hnew : Index.new hash eq ic num den = .ok s) (ops : List (Op K V)) :
    Legal Ok (empty hash eq) ops (runM step s ops).1 :=
  legal ops (new_inv hash eq hnew)

/-- Which capacities and load factors the constructor accepts. -/
theorem C27_new (hash : K → BitVec 32) (eq : K → K → Bool) (ic : Int) (num den : Nat) :
    (∃ s : Index K V, Index.new hash eq ic num den = .ok s) ↔
      (0 < ic ∧ ic ≤ 2 ^ 29 ∧ 0 < num ∧ num ≤ den) := by
  unfold Index.new
  have hM : MAX_CAPACITY = 2 ^ 29 := by decide
  rw [hM]
  constructor
  · rintro ⟨s, h⟩
    split at h
    · simp at h
    · split at h
      · simp at h
      · omega
  · intro h
    rw [if_neg (by omega), if_neg (by omega)]
    exact ⟨_, rfl⟩

/-- C27: after every history, `containsKey(k)` is true exactly when `k` was added (add/put of an
equal key) and not removed since (remove of an equal key, removal of its entry, clear). -/
theorem C27_membership (hash : K → BitVec 32) (eq : K → K → Bool) {ic : Int} {num den : Nat}
    {s : Index K V} (hnew : Index.new hash eq ic num den = .ok s) (ops : List (Op K V))
    (hp : ∀ o ∈ ops, Plain o) (hg : Guarded (empty hash eq) s ops) (k : K) :
    ∃ b, (containsKey k (final s ops)).out = .ok b ∧ (b = true ↔ AddedAndKept eq k s ops) := by
  have hR : ∀ ops, Guarded (empty hash eq) s ops →
      ∃ F, Inv False (final s ops) (ideal (empty hash eq) s ops) F := fun ops hg =>
    reach_inv (guarded_reach ops (Reach.new hnew False.elim) hg)
  have key : ∀ n, ∀ ops : List (Op K V), ops.length = n → (∀ o ∈ ops, Plain o) →
      Guarded (empty hash eq) s ops → (ideal (empty hash eq) s ops).eq = eq ∧
      ((∃ r ∈ (ideal (empty hash eq) s ops).rows, eq k r.key = true) ↔ AddedAndKept eq k s ops) := by
    intro n
    induction n with
    | zero =>
      intro ops hl _ _
      have := List.length_eq_zero_iff.1 hl
      subst this
      refine ⟨rfl, ?_⟩
      simp [ideal, empty, AddedAndKept]
    | succ n ih =>
      intro ops hl hp hg
      rcases snoc_cases ops with rfl | ⟨ops, o, rfl⟩
      · simp at hl
      · simp only [List.length_append, List.length_cons, List.length_nil] at hl
        rw [guarded_append] at hg
        obtain ⟨h1, h2⟩ := ih ops (by omega) (fun o ho => hp o (by simp [ho])) hg.1
        obtain ⟨F, hF⟩ := hR ops hg.1
        have h3 := present_after hF o hg.2.1 (hp o (by simp)) k
        rw [h1] at h3
        rw [addedAndKept_snoc, ← h2, ← h3, ideal_append]
        refine ⟨?_, Iff.rfl⟩
        simp only [ideal]
        rw [(after_eq (hp o (by simp)) _ _).1, h1]
  obtain ⟨F, hF⟩ := hR ops hg
  obtain ⟨h1, h2⟩ := key _ ops rfl hp hg
  refine ⟨_, by rw [containsKey_out hF]; rfl, ?_⟩
  rw [find_isSome, h1, h2]

/-- C27, whatever way the collection was obtained (also by copying or with removals during an
iteration): `containsKey` is true exactly for the keys equal to one of the keys it holds. -/
theorem C27_contains {exact : Prop} {s : Index K V} {a : Abs K V} (h : Reach exact s a) (k : K) :
    ∃ b, containsKey k s = .ok b s ∧ (b = true ↔ ∃ r ∈ a.rows, a.eq k r.key = true) := by
  obtain ⟨F, hF⟩ := reach_inv h
  exact ⟨_, containsKey_out hF k, find_isSome⟩

/-- A small map for the examples: `Int` keys hashed to themselves. -/
def exampleNew (ic : Int) (num den : Nat) : Except Err (Index Int Int) :=
  Index.new (fun k => BitVec.ofInt 32 k) (fun a b => a == b) ic num den

theorem int_coherent : Coherent (fun k : Int => BitVec.ofInt 32 k) (fun a b => a == b) :=
  ⟨by simp, by simp, by simp⟩

/- Non-vacuity: a history with collisions, growth (capacity 1, load factor 3/4), removal by key and
by entry; the hypotheses hold and 9 is a member, 1 is not. -/
example : ∃ s, exampleNew 1 3 4 = .ok s ∧
    (∀ o ∈ [Op.add 1, .put 9 5, .put 17 6, .remove 1, .removeAt 2, .add 2], Plain o) ∧
    Guarded (empty (fun k : Int => BitVec.ofInt 32 k) (fun a b => a == b)) s
      [Op.add 1, .put 9 5, .put 17 6, .remove 1, .removeAt 2, .add 2] ∧
    (runM step s [Op.add 1, .put 9 5, .put 17 6, .remove 1, .removeAt 2, .add 2, .containsKey 9,
      .containsKey 1, .containsKey 17, .size]).1 =
      [.ok (.int 0), .ok (.int 1), .ok (.int 2), .ok (.int 0), .ok .unit, .ok (.int 2),
        .ok (.bool true), .ok (.bool false), .ok (.bool false), .ok (.int 2)] := by
  refine ⟨_, rfl, by simp [Plain], ?_, by decide +kernel⟩
  refine ⟨⟨int_coherent, by decide⟩, ⟨int_coherent, ?_⟩, ⟨int_coherent, ?_⟩, trivial, trivial,
    ⟨int_coherent, ?_⟩, trivial⟩ <;> decide +kernel

/-! ## C28 size -/

/-- C28: in every reachable collection there is a list of pairwise different keys such that exactly
their equals are members, `size()` is its length, `isEmpty()` says whether it is empty, and `forEach`
presents these keys. -/
theorem C28_size {exact : Prop} {s : Index K V} {a : Abs K V} (h : Reach exact s a) :
    ∃ keys : List K, keys.Pairwise (fun x y => a.eq x y = false) ∧
      (∀ k, ∃ b, (containsKey k s).out = .ok b ∧ (b = true ↔ ∃ x ∈ keys, a.eq k x = true)) ∧
      (getSize s).out = .ok (keys.length : Int) ∧
      (isEmpty s).out = .ok (decide (keys = [])) ∧
      ∃ l, (forEach s).out = .ok l ∧ l.Perm keys := by
  obtain ⟨F, hF⟩ := reach_inv h
  refine ⟨a.rows.map (·.key), ?_, ?_, ?_, ?_, ?_⟩
  · rw [List.pairwise_map]; exact hF.distinct
  · intro k
    refine ⟨_, by rw [containsKey_out hF]; rfl, ?_⟩
    rw [find_isSome]; simp
  · simp [getSize, JM.bind_apply, hF.size]
  · simp only [isEmpty, JM.bind_apply, JM.get_apply, JM.pure_apply, Res.out_ok]
    congr 1
    have := size_zero hF
    simp [this]
  · refine ⟨_, by rw [forEach_spec hF]; rfl, ?_⟩
    rw [← live_keys hF]
    exact (order_perm hF).map _

/-! ## C29, C30 entries -/

/-- C29: the entry that `add(k)` returned is returned by `add(k)` and `lookupEntry(k)` after every
further history that does not remove `k` (or clear); `k` only has to be equal to itself. -/
theorem C29_entry_stable {exact : Prop} {s : Index K V} {a : Abs K V} (h : Reach exact s a) (k : K)
    (hk : a.eq k k = true) (e : Int) (hg0 : Guard (.add k : Op K V) a)
    (hadd : (step (.add k) s).out = .ok (.int e)) (ops : List (Op K V))
    (hg : Guarded (after (.add k) (step (.add k) s).out a) (step (.add k) s).state ops)
    (hu : ∀ o ∈ ops, Untouched a.eq k e o) :
    let t := final (step (.add k) s).state ops
    lookupEntry k t = .ok e t ∧ add k t = .ok e t := by
  intro t
  obtain ⟨F, hF⟩ := reach_inv h
  obtain ⟨h1, _, F', hF'⟩ := step_spec hF (.add k) hg0
  have hrow : ∃ r ∈ (after (.add k) (step (.add k) s).out a).rows, r.entry = e ∧
      a.eq k r.key = true ∧ (after (.add k) (step (.add k) s).out a).eq = a.eq := by
    simp only [Ok] at h1
    cases hf : a.find k with
    | some r =>
      simp only [hf, hadd] at h1
      simp only [after, hf]
      exact ⟨r, (find_some hf).1, by simpa using h1.symm, (find_some hf).2, trivial⟩
    | none =>
      simp only [after, hf, hadd]
      exact ⟨⟨e, k, default⟩, by simp [Abs.insert], rfl, hk, rfl⟩
  obtain ⟨r, g1, g2, g3, g4⟩ := hrow
  obtain ⟨r', q1, q2, q3, _, q5⟩ := kept_history ops (k := k) hF' hg g1 (by rw [g4]; exact g3)
    (by rw [g4, g2]; exact hu)
  obtain ⟨G, hG⟩ := reach_inv (guarded_reach ops (h.call (.add k) hg0) hg)
  have hq : (ideal (after (.add k) (step (.add k) s).out a) (step (.add k) s).state ops).eq k r'.key
      = true := by rw [q5, g4, q3]; exact g3
  have hf := find_of_mem hG q1 hq
  constructor
  · have := lookupEntry_spec hG k
    rw [entryOf_some hG hf, q2, g2] at this
    exact this
  · have := add_present hG hf
    rw [q2, g2] at this
    exact this

/- Non-vacuity: entry 1 of key 9 survives growth and other removals. -/
example : ∃ s, exampleNew 1 1 1 = .ok s ∧
    (runM step s [Op.add 1, .add 9, .add 17, .add 25, .remove 1, .removeAt 2, .add 33, .lookupEntry 9,
      .add 9]).1 =
    [.ok (.int 0), .ok (.int 1), .ok (.int 2), .ok (.int 3), .ok (.int 0), .ok .unit, .ok (.int 2),
      .ok (.int 1), .ok (.int 1)] ∧
    ∀ o ∈ [Op.add 17, .add 25, .remove 1, .removeAt 2, .add 33], Untouched (K := Int) (V := Int)
      (fun a b => a == b) 9 1 o := by
  refine ⟨_, rfl, by decide +kernel, by simp [Untouched]⟩

/-- C30: entries identify the keys one-to-one. -/
theorem C30_one_to_one {exact : Prop} {s : Index K V} {a : Abs K V} (h : Reach exact s a) :
    -- an entry found belongs to one key only, and getKeyAt gives it back
    (∀ k e, (lookupEntry k s).out = .ok e → e ≠ -1 →
      ∃ k', (getKeyAt e s).out = .ok k' ∧ a.eq k k' = true) ∧
    (∀ k1 k2 e, (lookupEntry k1 s).out = .ok e → (lookupEntry k2 s).out = .ok e → e ≠ -1 →
      a.eq k1 k2 = true) ∧
    -- the key at a live entry is found there
    (∀ l e, (forEachEntry s).out = .ok l → e ∈ l →
      ∃ k, (getKeyAt e s).out = .ok k ∧ (a.eq k k = true → (lookupEntry k s).out = .ok e)) ∧
    -- -1 is returned exactly for absent keys; other results are not negative
    (∀ k, ∃ e, (lookupEntry k s).out = .ok e ∧ -1 ≤ e ∧
      (e = -1 ↔ (containsKey k s).out = .ok false)) := by
  obtain ⟨F, hF⟩ := reach_inv h
  have getKey : ∀ r ∈ a.rows, (getKeyAt r.entry s).out = .ok r.key := by
    intro r hr
    have hrng := row_range hF (.inl hr)
    unfold getKeyAt
    rw [rd_ok _ ⟨hrng.1, by rw [klen_eq hF]; exact hrng.2⟩, (hF.rowsOk r (.inl hr)).1]; rfl
  refine ⟨?_, ?_, ?_, ?_⟩
  · intro k e h1 hne
    rw [lookup_out hF] at h1
    obtain ⟨r, hr, _, he, hq⟩ := entryOf_eq hF (by simpa using h1) hne
    exact ⟨r.key, he ▸ getKey r hr, hq⟩
  · intro k1 k2 e h1 h2 hne
    rw [lookup_out hF] at h1 h2
    obtain ⟨r, hr, _, he, hq⟩ := entryOf_eq hF (by simpa using h1) hne
    obtain ⟨r', hr', _, he', hq'⟩ := entryOf_eq hF (by simpa using h2) hne
    have := entry_unique hF hr hr' (by rw [he, he'])
    subst this
    have hc := hF.coherent (by intro h0; rw [h0] at hr; simp at hr)
    exact hc.trans _ _ _ hq (hc.symm _ _ hq')
  · intro l e hl he
    rw [forEachEntry_spec hF] at hl
    simp at hl
    rw [← hl, (order_perm hF).mem_iff] at he
    obtain ⟨r, hr, rfl⟩ := List.mem_map.1 he
    refine ⟨r.key, getKey r hr, fun hq => ?_⟩
    rw [lookup_out hF, entryOf_some hF (find_of_mem hF hr hq)]
  · intro k
    refine ⟨_, lookup_out hF k, ?_, ?_⟩
    · cases hf : a.find k with
      | none => rw [(entryOf_eq_neg hF k).2 hf]; decide
      | some r => have := entryOf_nonneg hF hf; omega
    · rw [containsKey_out hF, entryOf_eq_neg hF]
      cases a.find k <;> simp

/-! ## C31 dense, reused entries -/

/-- C31: with `capacity * loadFactor >= 1/2`, every new key gets exactly the most recently freed
entry if one is free and otherwise the next integer never handed out (since the last clear):
`OkExact`, `Abs.alloc` in Spec/Index.lean. -/
theorem C31_exact_partial (hash : K → BitVec 32) (eq : K → K → Bool) {ic : Int} {num den : Nat}
    {s : Index K V} (hnew : Index.new hash eq ic num den = .ok s)
    (hlf : (den : Int) ≤ 2 * nextPowerOf2 ic * num) (ops : List (Op K V)) :
    Legal OkExact (empty hash eq) ops (runM step s ops).1 :=
  legal_exact hlf ops (new_inv hash eq hnew)

theorem next_step {exact : Prop} {s : Index K V} {a : Abs K V} {F : List Int} (h : Inv exact s a F)
    (o : Op K V) (hg : Guard o a) :
    (after o (step o s).out a).next ≤ a.next ∨
      (after o (step o s).out a).next ≤ (after o (step o s).out a).used + 29 ∧
      (exact → (after o (step o s).out a).next ≤ (after o (step o s).out a).used) := by
  have addLike : ∀ (k : K) (v : V) e, (e ∈ a.free ∨ e = a.next) → (exact → e = a.alloc) →
      (e = a.next → a.next ≤ a.rows.length + a.reserved.length + 29) →
      (a.insert e k v).next ≤ a.next ∨ (a.insert e k v).next ≤ (a.insert e k v).used + 29 ∧
        (exact → (a.insert e k v).next ≤ (a.insert e k v).used) := by
    intro k v e h1 h2 h3
    rcases h1 with h1 | h1
    · left
      have := (h.mem_range e).1 (.inr (.inr h1))
      simp only [Abs.insert]; omega
    · right
      have h4 := h3 h1
      have h5 := h.count
      simp only [Abs.insert, Abs.used, List.length_cons]
      refine ⟨by omega, fun hx => ?_⟩
      have h6 := h2 hx
      cases hfr : a.free with
      | nil => rw [hfr] at h5; simp only [List.length_nil] at h5; omega
      | cons x l =>
        simp only [Abs.alloc, hfr] at h6
        have := (h.mem_range x).1 (.inr (.inr (by simp [hfr])))
        omega
  cases o with
  | add k =>
    cases hf : a.find k with
    | some r => simp only [after, hf]; exact .inl (Int.le_refl _)
    | none =>
      obtain ⟨e, s', F', h1, h2, _, _, h5, h6, _⟩ := add_absent h hf hg.1 hg.2
      have hr : (step (.add k) s).out = .ok (.int e) := by
        simp only [step]; rw [JM.bind_ok h1]; rfl
      simp only [after, hf, hr]
      exact addLike k default e h5 h6.1 h6.2.2
  | put k v =>
    cases hf : a.find k with
    | some r => simp only [after, hf]; exact .inl (Int.le_refl _)
    | none =>
      obtain ⟨e, s', F', h1, h2, h3, _, h5, h6, _⟩ := add_absent h hf hg.1 hg.2
      have hr : (step (.put k v) s).out = .ok (.int e) := by
        simp only [step]; rw [JM.bind_ok (h3 v)]; rfl
      simp only [after, hf, hr]
      exact addLike k v e h5 h6.1 h6.2.2
  | remove k => left; simp only [after]; split <;> simp [Abs.drop]
  | removeAt e => left; simp only [after]; split <;> simp [Abs.drop]
  | clear => left; simp only [after]; exact h.next0
  | setHashMethod _ => left; simp only [after]; split <;> simp
  | setEqMethod _ => left; simp only [after]; split <;> simp
  | _ => left; simp [after, Abs.drop]

theorem used_le_peak (ops : List (Op K V)) : ∀ (a : Abs K V) (s : Index K V), a.used ≤ peak a s ops := by
  cases ops with
  | nil => intro a s; exact Int.le_refl _
  | cons o os => intro a s; exact Int.le_max_left _ _

theorem next_le_peak {exact : Prop} (ops : List (Op K V)) : ∀ {s : Index K V} {a : Abs K V}
    {F : List Int} {p : Int}, Inv exact s a F → Guarded a s ops → a.next ≤ p + 29 →
    (exact → a.next ≤ p) → peak a s ops ≤ p →
    (ideal a s ops).next ≤ p + 29 ∧ (exact → (ideal a s ops).next ≤ p) := by
  induction ops with
  | nil => intro s a F p _ _ h1 h2 _; exact ⟨h1, h2⟩
  | cons o os ih =>
    intro s a F p h hg h1 h2 hp
    obtain ⟨F', hF'⟩ := (step_spec h o hg.1).2.2
    have hp' : peak (after o (step o s).out a) (step o s).state os ≤ p :=
      Int.le_trans (Int.le_max_right _ _) hp
    have hu := used_le_peak os (after o (step o s).out a) (step o s).state
    refine ih hF' hg.2 ?_ ?_ hp'
    · rcases next_step h o hg.1 with h3 | ⟨h3, _⟩ <;> omega
    · intro hx
      have := h2 hx
      rcases next_step h o hg.1 with h3 | ⟨_, h3⟩
      · omega
      · have := h3 hx; omega

/-- C31: after every history, every entry is below the peak number of entries in use (associations
and reserved entries) if `capacity * loadFactor >= 1/2`, and below that peak plus 29 with every legal
capacity and load factor. -/
theorem C31_dense_partial (hash : K → BitVec 32) (eq : K → K → Bool) {ic : Int} {num den : Nat}
    {s : Index K V} (hnew : Index.new hash eq ic num den = .ok s) (ops : List (Op K V))
    (hg : Guarded (empty hash eq) s ops) (k : K) (e : Int)
    (hl : (lookupEntry k (final s ops)).out = .ok e) :
    -1 ≤ e ∧ (e ≠ -1 → e < peak (empty hash eq) s ops + 29) ∧
    ((den : Int) ≤ 2 * nextPowerOf2 ic * num → e ≠ -1 → e < peak (empty hash eq) s ops) := by
  have hI : Inv ((den : Int) ≤ 2 * nextPowerOf2 ic * num) s (empty hash eq) [] := new_inv hash eq hnew
  obtain ⟨F, hF⟩ := reach_inv (guarded_reach ops
    (Reach.new (exact := (den : Int) ≤ 2 * nextPowerOf2 ic * num) hnew id) hg)
  have hpk := used_le_peak ops (empty hash eq) s
  have h0 : (empty hash eq : Abs K V).used = 0 := by simp [empty, Abs.used]
  have hz : (empty hash eq : Abs K V).next = 0 := rfl
  rw [h0] at hpk
  obtain ⟨h1, h2⟩ := next_le_peak ops hI hg (p := peak (empty hash eq) s ops) (by rw [hz]; omega)
    (by intro _; rw [hz]; omega) (Int.le_refl _)
  rw [lookup_out hF] at hl
  simp at hl
  refine ⟨?_, ?_, ?_⟩
  · cases hf : (ideal (empty hash eq) s ops).find k with
    | none => rw [(entryOf_eq_neg hF k).2 hf] at hl; omega
    | some r => have := entryOf_nonneg hF hf; omega
  · intro hne
    obtain ⟨r, hr, _, he, _⟩ := entryOf_eq hF hl hne
    have := (hF.mem_range r.entry).1 (.inl (mem_live hr))
    omega
  · intro hx hne
    obtain ⟨r, hr, _, he, _⟩ := entryOf_eq hF hl hne
    have := (hF.mem_range r.entry).1 (.inl (mem_live hr))
    have := h2 hx
    omega

/-- C31: with every capacity and load factor, an entry just freed (by `remove`, `removeAt` or
`freeReservedEntry`) is the one the next new key gets. -/
theorem C31_reuse {exact : Prop} {s : Index K V} {a : Abs K V} (h : Reach exact s a) (o : Op K V)
    (e : Int) (hg : Guard o a)
    (ho : (∃ k, o = .remove k ∧ (step o s).out = .ok (.int e) ∧ e ≠ -1) ∨
      (o = .removeAt e ∧ e ∈ a.live) ∨ o = .freeReservedEntry e)
    (k : K) (hg' : Guard (.add k : Op K V) (after o (step o s).out a))
    (hk : (containsKey k (step o s).state).out = .ok false) :
    (add k (step o s).state).out = .ok e ∧ ∀ v, (put k v (step o s).state).out = .ok e := by
  obtain ⟨F, hF⟩ := reach_inv h
  have fin : ∀ {t : Index K V} {b : Abs K V} {G : List Int}, Inv exact t b (e :: G) →
      Guard (.add k : Op K V) b → (containsKey k t).out = .ok false →
      (add k t).out = .ok e ∧ ∀ v, (put k v t).out = .ok e := by
    intro t b G hG hgb hkb
    rw [containsKey_out hG] at hkb
    have hf : b.find k = none := by simpa using hkb
    obtain ⟨e', s', F', h1, _, h3, _, _, h6, _⟩ := add_absent hG hf hgb.1 hgb.2
    have := h6.2.1 e G rfl
    subst this
    exact ⟨by rw [h1]; rfl, fun v => by rw [h3 v]; rfl⟩
  rcases ho with ⟨k', rfl, h1, h2⟩ | ⟨rfl, h1⟩ | rfl
  · cases hf : a.find k' with
    | none =>
      have : step (.remove k') s = .ok (.int (-1)) s := by
        simp only [step]; unfold remove; rw [JM.bind_ok (removeKey_absent hF hf true)]; rfl
      rw [this] at h1
      simp at h1; omega
    | some r =>
      obtain ⟨s', F', g1, g2, _, _, g5⟩ := removeKey_present hF hf true
      have hst : step (.remove k') s = .ok (.int r.entry) s' := by
        simp only [step]; unfold remove; rw [JM.bind_ok g1]; rfl
      rw [hst] at h1 hg' hk ⊢
      simp at h1
      subst h1
      rw [g5 rfl] at g2
      simp only [after, hf, Res.state_ok] at hg' hk ⊢
      exact fin (by simpa using g2) hg' hk
  · obtain ⟨s', g1, g2, _⟩ := removeAt_live hF h1
    have hst : step (.removeAt e) s = .ok .unit s' := by
      simp only [step]; rw [JM.bind_ok g1]; rfl
    rw [hst] at hg' hk ⊢
    simp only [after, if_pos h1, Res.state_ok] at hg' hk ⊢
    exact fin g2 hg' hk
  · obtain ⟨s', g1, g2, _⟩ := freeReserved_spec hF hg
    have hst : step (.freeReservedEntry e) s = .ok .unit s' := by
      simp only [step]; rw [JM.bind_ok g1]; rfl
    rw [hst] at hg' hk ⊢
    simp only [after, Res.state_ok] at hg' hk ⊢
    exact fin g2 hg' hk

/- Non-vacuity of the C31 statements: entries 2, 0 are freed and handed out again as 0, 2, then 3. -/
example : ∃ s, exampleNew 2 3 4 = .ok s ∧ ((4 : Nat) : Int) ≤ 2 * nextPowerOf2 2 * ((3 : Nat) : Int) ∧
    (runM step s [Op.add 10, .add 11, .add 12, .remove 12, .removeAt 0, .add 13, .add 14, .add 15]).1 =
    [.ok (.int 0), .ok (.int 1), .ok (.int 2), .ok (.int 2), .ok .unit, .ok (.int 0), .ok (.int 2),
      .ok (.int 3)] :=
  ⟨_, rfl, by decide, by decide +kernel⟩

/-- C31 is false for tiny `capacity * loadFactor`: with capacity 1 and load factor 1/64, three keys
are added and removed; the next new key gets the most recently freed entry, but the growth it causes
forgets part of the list of free entries: the third key after it gets entry 3 although entry 0 is free
and only three keys were ever held at the same time. -/
theorem C31_leak_refuted : ∃ s, exampleNew 1 1 64 = .ok s ∧
    (runM step s [Op.add 10, .add 11, .add 12, .remove 10, .remove 11, .remove 12,
      .add 13, .add 14, .add 15, .size]).1 =
    [.ok (.int 0), .ok (.int 1), .ok (.int 2), .ok (.int 0), .ok (.int 1), .ok (.int 2),
      .ok (.int 2), .ok (.int 1), .ok (.int 3), .ok (.int 3)] :=
  ⟨_, rfl, by decide +kernel⟩

end Verif
