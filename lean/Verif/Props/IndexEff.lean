import Verif.Proofs.IndexEff3
import Verif.Proofs.Reach
import Verif.Props.Index
set_option linter.unusedSectionVars false
/-! # Properties C106, C107: which calls of the hash and equality functions a collection makes, and what happens if one
of them throws

`IndexEff.step eff` is the indexed map with functions whose calls have the effect `eff` (Model/IndexEff.lean). -/
namespace Verif
open Index IndexSpec IndexEff IndexEffSpec IndexEffProof
variable {σ K V : Type} [Inhabited K] [Inhabited V]

namespace IndexEffProof
variable {eff : Effects σ K} {h : K → BitVec 32} {q : K → K → Bool}

theorem askAll_append : ∀ (l l' : List (Ask K)) (u : σ), askAll eff h q (l ++ l') u =
    match askAll eff h q l u with
    | .ok _ u' => askAll eff h q l' u'
    | .err e u' => .err e u'
  | [], _, _ => rfl
  | .hash k :: l, l', u => by
    rw [List.cons_append, askAll_hash, askAll_hash]
    cases eff.hash h k u with
    | ok r u' => exact askAll_append l l' u'
    | err e u' => rfl
  | .eq a b :: l, l', u => by
    rw [List.cons_append, askAll_eq, askAll_eq]
    cases eff.eq q a b u with
    | ok r u' => exact askAll_append l l' u'
    | err e u' => rfl

theorem lifts_out {α : Type} (r : Res (Index K V) α) (u : σ) : (lifts r u).out = r.out ∧ (lifts r u).state = ⟨r.state, u⟩ := by
  cases r <;> exact ⟨rfl, rfl⟩

theorem askAll_counting : ∀ (l : List (Ask K)) (u : Nat × Nat),
    askAll counting h q l u = .ok () (u.1 + hashes l, u.2 + compares l)
  | [], u => rfl
  | .hash k :: l, u => by
    rw [askAll_hash]
    show askAll counting h q l (u.1 + 1, u.2) = _
    rw [askAll_counting l]
    have e1 : hashes (.hash k :: l) = hashes l + 1 := by simp [hashes]
    have e2 : compares (.hash k :: l) = compares l := by simp [compares]
    rw [e1, e2, Nat.add_right_comm u.1 1, Nat.add_assoc u.1]
  | .eq a b :: l, u => by
    rw [askAll_eq]
    show askAll counting h q l (u.1, u.2 + 1) = _
    rw [askAll_counting l]
    have e1 : hashes (.eq a b :: l) = hashes l := by simp [hashes]
    have e2 : compares (.eq a b :: l) = compares l + 1 := by simp [compares]
    rw [e1, e2, Nat.add_right_comm u.2 1, Nat.add_assoc u.2]

theorem honest_counting : Honest (counting (K := K)) where
  hash _ _ _ _ _ h := by cases h; rfl
  eq _ _ _ _ _ _ h := by cases h; rfl

theorem hashes_append (l l' : List (Ask K)) : hashes (l ++ l') = hashes l + hashes l' := List.countP_append
theorem compares_append (l l' : List (Ask K)) : compares (l ++ l') = compares l + compares l' := List.countP_append

theorem hashes_hash (l : List K) : hashes (l.map Ask.hash) = l.length ∧ compares (l.map Ask.hash) = 0 := by
  induction l with
  | nil => exact ⟨rfl, rfl⟩
  | cons x l ih => simp [hashes, compares] at ih ⊢

theorem hashes_eq (k : K) (l : List K) : hashes (l.map (Ask.eq k)) = 0 ∧ compares (l.map (Ask.eq k)) = l.length := by
  induction l with
  | nil => exact ⟨rfl, rfl⟩
  | cons x l ih => simp [hashes, compares] at ih ⊢

theorem upto_length {α : Type} (p : α → Bool) : ∀ l : List α, (upto p l).length ≤ l.length
  | [] => Nat.le_refl _
  | x :: l => by
    unfold upto
    split
    · simp
    · have := upto_length p l; simp; omega

theorem search_count (s : Index K V) (k : K) :
    hashes (search s k) = 1 ∧ compares (search s k) ≤ (bucket s k).length := by
  unfold search
  have h1 := hashes_eq k (upto (s.equalFunc k) (bucket s k))
  have h2 := upto_length (s.equalFunc k) (bucket s k)
  constructor
  · have : hashes (Ask.hash k :: (upto (s.equalFunc k) (bucket s k)).map (Ask.eq k)) =
        hashes ((upto (s.equalFunc k) (bucket s k)).map (Ask.eq k)) + 1 := by simp [hashes]
    rw [this, h1.1]
  · have : compares (Ask.hash k :: (upto (s.equalFunc k) (bucket s k)).map (Ask.eq k)) =
        compares ((upto (s.equalFunc k) (bucket s k)).map (Ask.eq k)) := by simp [compares]
    rw [this, h1.2]; exact h2

end IndexEffProof

/-- C106: after any guarded history, a call asks exactly the questions `asked` before it changes anything and then
`askedGrowing`: if one of the former throws the collection is unchanged; if one of the latter throws the call ends
there; otherwise the call does what Model/Index.lean says. -/
theorem C106_questions {exact : Prop} {s : Index K V} {a : Abs K V} (h : Reach exact s a) {o : Op K V} (hg : Guard o a)
    {eff : Effects σ K} (hE : Honest eff) (u : σ) :
    (∀ e u', askAll eff s.hashFunc s.equalFunc (asked s o) u = .err e u' →
      IndexEff.step eff o ⟨s, u⟩ = .err e ⟨s, u'⟩) ∧
    (∀ e u', askAll eff s.hashFunc s.equalFunc (asked s o ++ askedGrowing s o) u = .err e u' →
      (IndexEff.step eff o ⟨s, u⟩).out = .error e ∧ (IndexEff.step eff o ⟨s, u⟩).state.ext = u') ∧
    (∀ u', askAll eff s.hashFunc s.equalFunc (asked s o ++ askedGrowing s o) u = .ok () u' →
      (IndexEff.step eff o ⟨s, u⟩).out = (Index.step o s).out ∧
      (IndexEff.step eff o ⟨s, u⟩).state = ⟨(Index.step o s).state, u'⟩) := by
  obtain ⟨F, hF⟩ := reach_inv h
  have := step_first hE hF o hg u
  rw [askAll_append]
  cases h1 : askAll eff s.hashFunc s.equalFunc (asked s o) u with
  | err e u' =>
    rw [h1] at this
    simp only at this ⊢
    refine ⟨?_, ?_, ?_⟩
    · intro e' u'' he; cases he; exact this
    · intro e' u'' he; cases he; rw [this]; exact ⟨rfl, rfl⟩
    · intro u'' he; cases he
  | ok x u' =>
    rw [h1] at this
    refine ⟨fun _ _ he => (by cases he), ?_⟩
    simp only at this ⊢
    cases h2 : askAll eff s.hashFunc s.equalFunc (askedGrowing s o) u' with
    | err e u'' =>
      rw [h2] at this
      obtain ⟨t, ht⟩ := this
      refine ⟨?_, ?_⟩
      · intro e' u3 he; cases he; rw [ht]; exact ⟨rfl, rfl⟩
      · intro u3 he; cases he
    | ok y u'' =>
      rw [h2] at this
      refine ⟨fun _ _ he => (by cases he), ?_⟩
      intro u3 he; cases he
      rw [show IndexEff.step eff o ⟨s, u⟩ = _ from this]
      exact lifts_out _ _

open Classical in
/-- C106, counted: every call that takes a key hashes it once, `add` and `put` hash every key and the new one once more
if the collection grows; no key is compared with more keys than its bucket holds, nor, so, with more keys than there
are; and counting changes neither the result nor the collection. -/
theorem C106_how_often {exact : Prop} {s : Index K V} {a : Abs K V} (h : Reach exact s a) {o : Op K V} (hg : Guard o a)
    (i j : Nat) : ∃ hs cs, (IndexEff.step counting o ⟨s, (i, j)⟩).out = (Index.step o s).out ∧
      (IndexEff.step counting o ⟨s, (i, j)⟩).state = ⟨(Index.step o s).state, (i + hs, j + cs)⟩ ∧
      hs = hashesPerCall o + (if ∃ k, (o = .add k ∨ ∃ v, o = .put k v) ∧ Grows s k (Index.step o s).out
        then a.rows.length + 1 else 0) ∧
      cs ≤ a.rows.length ∧ (hashesPerCall o = 0 → cs = 0) ∧
      (∀ k, (o = .add k ∨ (∃ v, o = .put k v) ∨ o = .lookupEntry k ∨ o = .containsKey k ∨ o = .get k ∨
        (∃ d, o = .getOrDefault k d) ∨ o = .remove k) → cs ≤ (bucket s k).length) := by
  obtain ⟨F, hF⟩ := reach_inv h
  have hq := (C106_questions h hg honest_counting (i, j)).2.2 _ (askAll_counting (asked s o ++ askedGrowing s o) (i, j))
  refine ⟨_, _, hq.1, hq.2, ?_⟩
  rw [hashes_append, compares_append]
  have hk : (keysOf s).length = a.rows.length := by
    rw [keysOf_eq hF, List.length_map]; have := order_length hF; have := hF.size; omega
  have hb : ∀ k, compares (search s k) ≤ a.rows.length := fun k => by
    have := (search_count s k).2
    have h2 : (bucket s k).length ≤ (keysOf s).length := List.length_filter_le _ _
    omega
  have hgr : ∀ k : K, hashes ((keysOf s).map Ask.hash ++ [.hash k]) = a.rows.length + 1 ∧
      compares ((keysOf s).map Ask.hash ++ [.hash k]) = 0 := fun k => by
    rw [hashes_append, compares_append, (hashes_hash _).1, (hashes_hash _).2, hk]
    exact ⟨rfl, rfl⟩
  have nil : hashes ([] : List (Ask K)) = 0 ∧ compares ([] : List (Ask K)) = 0 := ⟨rfl, rfl⟩
  have hgt : hashes (askedGrowing s o) = (if ∃ k, (o = .add k ∨ ∃ v, o = .put k v) ∧ Grows s k (Index.step o s).out
      then a.rows.length + 1 else 0) ∧ compares (askedGrowing s o) = 0 := by
    cases o with
    | add k =>
      have : (∃ k', ((Op.add k : Op K V) = .add k' ∨ ∃ v, (Op.add k : Op K V) = .put k' v) ∧
        Grows s k' (Index.step (.add k) s).out) ↔ Grows s k (Index.step (.add k) s).out := by
        constructor
        · rintro ⟨k', hk' | ⟨v, hk'⟩, hgw⟩
          · cases hk'; exact hgw
          · cases hk'
        · exact fun hgw => ⟨k, .inl rfl, hgw⟩
      simp only [this, askedGrowing]
      split
      · exact hgr k
      · exact nil
    | put k v =>
      have : (∃ k', ((Op.put k v : Op K V) = .add k' ∨ ∃ v', (Op.put k v : Op K V) = .put k' v') ∧
        Grows s k' (Index.step (.put k v) s).out) ↔ Grows s k (Index.step (.put k v) s).out := by
        constructor
        · rintro ⟨k', hk' | ⟨v, hk'⟩, hgw⟩
          · cases hk'
          · cases hk'; exact hgw
        · exact fun hgw => ⟨k, .inr ⟨v, rfl⟩, hgw⟩
      simp only [this, askedGrowing]
      split
      · exact hgr k
      · exact nil
    | _ =>
      rw [if_neg (by rintro ⟨k', hk' | ⟨v, hk'⟩, -⟩ <;> cases hk')]
      exact nil
  rw [hgt.1, hgt.2]
  have ha : hashes (asked s o) = hashesPerCall o ∧ compares (asked s o) ≤ a.rows.length ∧
      (hashesPerCall o = 0 → compares (asked s o) = 0) := by
    cases o with
    | add k => exact ⟨(search_count s k).1, hb k, fun e => by cases e⟩
    | put k v => exact ⟨(search_count s k).1, hb k, fun e => by cases e⟩
    | lookupEntry k => exact ⟨(search_count s k).1, hb k, fun e => by cases e⟩
    | containsKey k => exact ⟨(search_count s k).1, hb k, fun e => by cases e⟩
    | get k => exact ⟨(search_count s k).1, hb k, fun e => by cases e⟩
    | getOrDefault k d => exact ⟨(search_count s k).1, hb k, fun e => by cases e⟩
    | remove k => exact ⟨(search_count s k).1, hb k, fun e => by cases e⟩
    | removeAtAndReserve e => exact ⟨(search_count s _).1, hb _, fun e => by cases e⟩
    | _ => exact ⟨rfl, Nat.zero_le _, fun _ => rfl⟩
  refine ⟨by rw [ha.1], by omega, fun e => by have := ha.2.2 e; omega, ?_⟩
  have hs2 := fun k => (search_count s k).2
  rintro k (rfl | ⟨v, rfl⟩ | rfl | rfl | rfl | ⟨d, rfl⟩ | rfl) <;> exact hs2 k

namespace IndexEffProof
variable {eff : Effects σ K} {s : Index K V} {a : Abs K V}

theorem keysOf_perm {exact : Prop} {F : List Int} (h : Index.Inv exact s a F) : (keysOf s).Perm (a.rows.map (·.key)) := by
  obtain ⟨l, h1, h2⟩ := (step_spec h .forEach trivial).1
  unfold keysOf
  rw [h1]
  exact h2

theorem after_keys (o : Op K V) (out : Except Err (Out K V)) {r : Row K V} (hr : r ∈ (after o out a).rows) :
    (∃ r' ∈ a.rows, r'.key = r.key) ∨ o = .add r.key ∨ ∃ v, o = .put r.key v := by
  have old : r ∈ a.rows → (∃ r' ∈ a.rows, r'.key = r.key) ∨ o = .add r.key ∨ ∃ v, o = .put r.key v :=
    fun h => .inl ⟨r, h, rfl⟩
  have set : ∀ {e : Int} {v : V}, r ∈ Abs.setVal e v a.rows → ∃ r' ∈ a.rows, r'.key = r.key := fun h => by
    obtain ⟨r', h1, h2⟩ := List.mem_map.1 h
    refine ⟨r', h1, ?_⟩
    rw [← h2]; split <;> rfl
  cases o with
  | add k =>
    simp only [after] at hr
    split at hr
    · rcases List.mem_cons.1 hr with rfl | hr
      · exact .inr (.inl rfl)
      · exact old hr
    · exact old hr
  | put k v =>
    simp only [after] at hr
    split at hr
    · rcases List.mem_cons.1 hr with rfl | hr
      · exact .inr (.inr ⟨v, rfl⟩)
      · exact old hr
    · exact .inl (set hr)
    · exact old hr
  | remove k =>
    simp only [after] at hr
    split at hr
    · exact old hr
    · exact old (List.mem_of_mem_filter hr)
  | removeAt e =>
    simp only [after] at hr
    split at hr
    · exact old (List.mem_of_mem_filter hr)
    · exact old hr
  | removeAtAndReserve e => exact old (List.mem_of_mem_filter hr)
  | putValueAt e v => exact .inl (set hr)
  | clear => cases hr
  | setHashMethod f => simp only [after] at hr; split at hr <;> exact old hr
  | setEqMethod f => simp only [after] at hr; split at hr <;> exact old hr
  | _ => exact old hr

theorem after_hash (o : Op K V) (out : Except Err (Out K V)) {r : Row K V} (hr : r ∈ (after o out a).rows) :
    (after o out a).hash = a.hash := by
  cases o with
  | setHashMethod f =>
    simp only [after] at hr ⊢
    split at hr
    · rename_i he; rw [he] at hr; cases hr
    · rename_i he; rw [if_neg he]
  | add k => simp only [after]; split <;> rfl
  | put k v => simp only [after]; split <;> rfl
  | remove k => simp only [after]; split <;> rfl
  | removeAt e => simp only [after]; split <;> rfl
  | setEqMethod f => simp only [after]; split <;> rfl
  | _ => rfl

theorem askAll_steady {q : K → K → Bool} {f : K → BitVec 32} (hS : Steady eff) : ∀ (l : List K) (u : σ),
    (∀ k ∈ l, Hashed eff f k) → ∃ u', askAll eff f q (l.map Ask.hash) u = .ok () u'
  | [], u, _ => ⟨u, rfl⟩
  | k :: l, u, h => by
    obtain ⟨u1, h1⟩ := hS f k (h k (by simp)) u
    obtain ⟨u2, h2⟩ := askAll_steady hS l u1 fun k' hk => h k' (by simp [hk])
    refine ⟨u2, ?_⟩
    rw [List.map_cons, askAll_hash, h1]
    exact h2

theorem search_hashed {q : K → K → Bool} {f : K → BitVec 32} (hE : Honest eff) {k : K} {l : List (Ask K)} {u u' : σ}
    (h : askAll eff f q (.hash k :: l) u = .ok () u') : Hashed eff f k := by
  rw [askAll_hash] at h
  cases e : eff.hash f k u with
  | ok r u1 => exact ⟨u, u1, by rw [e, hE.hash f k u r u1 e]⟩
  | err x u1 => rw [e] at h; cases h

end IndexEffProof

/-- C107, where it holds, for one call: if a key that was hashed once can always be hashed (the equality function may
throw whenever it likes) and the keys stored were hashed, then a call either ends with an exception of one of the
functions and leaves the collection as it was, or does what Model/Index.lean says; and the keys stored then were
hashed. -/
theorem C107_steady_partial {exact : Prop} {s : Index K V} {a : Abs K V} (h : Reach exact s a) {o : Op K V}
    (hg : Guard o a) {eff : Effects σ K} (hE : Honest eff) (hS : Steady eff) (hK : AllHashed eff s) (u : σ) :
    (∃ e u', askAll eff s.hashFunc s.equalFunc (asked s o) u = .err e u' ∧
      IndexEff.step eff o ⟨s, u⟩ = .err e ⟨s, u'⟩) ∨
    ((IndexEff.step eff o ⟨s, u⟩).out = (Index.step o s).out ∧
      (IndexEff.step eff o ⟨s, u⟩).state.index = (Index.step o s).state ∧ AllHashed eff (Index.step o s).state) := by
  obtain ⟨F, hF⟩ := reach_inv h
  obtain ⟨c1, -, c3⟩ := C106_questions h hg hE u
  cases h1 : askAll eff s.hashFunc s.equalFunc (asked s o) u with
  | err e u' => exact .inl ⟨e, u', rfl, c1 e u' h1⟩
  | ok x u1 =>
    right
    have hnew : ∀ k, (o = .add k ∨ ∃ v, o = .put k v) → Hashed eff s.hashFunc k := by
      rintro k (rfl | ⟨v, rfl⟩) <;> exact search_hashed hE h1
    have hall : ∀ k, (o = .add k ∨ ∃ v, o = .put k v) →
        ∃ u2, askAll eff s.hashFunc s.equalFunc ((keysOf s).map .hash ++ [.hash k]) u1 = .ok () u2 := by
      intro k hk
      have := askAll_steady (q := s.equalFunc) hS (keysOf s ++ [k]) u1 fun k' hk' => by
        rcases List.mem_append.1 hk' with hk' | hk'
        · exact hK k' hk'
        · rw [List.mem_singleton.1 hk']; exact hnew k hk
      rwa [List.map_append] at this
    have hgrow : ∃ u2, askAll eff s.hashFunc s.equalFunc (askedGrowing s o) u1 = .ok () u2 := by
      cases o with
      | add k =>
        simp only [askedGrowing]
        split
        · exact hall k (.inl rfl)
        · exact ⟨u1, rfl⟩
      | put k v =>
        simp only [askedGrowing]
        split
        · exact hall k (.inr ⟨v, rfl⟩)
        · exact ⟨u1, rfl⟩
      | _ => exact ⟨u1, rfl⟩
    obtain ⟨u2, h2⟩ := hgrow
    obtain ⟨r1, r2⟩ := c3 u2 (by rw [askAll_append, h1]; exact h2)
    refine ⟨r1, by rw [r2], ?_⟩
    obtain ⟨-, -, F', hF'⟩ := step_spec hF o hg
    intro k hk
    obtain ⟨r, hr, rfl⟩ := List.mem_map.1 ((keysOf_perm hF').mem_iff.1 hk)
    rw [hF'.hash, after_hash o _ hr, ← hF.hash]
    rcases after_keys o _ hr with ⟨r', h3, h4⟩ | h3
    · refine hK _ ((keysOf_perm hF).mem_iff.2 ?_)
      rw [← h4]
      exact List.mem_map_of_mem h3
    · exact hnew _ h3

/-- C107, where it holds, for a history: the calls can be divided into those that threw an exception of one of the
functions, and the others; the collection and the results of the others are as if the former had not been made. -/
theorem C107_history_partial {exact : Prop} {eff : Effects σ K} (hE : Honest eff) (hS : Steady eff) :
    ∀ (ops : List (Op K V)) {s : Index K V} {a : Abs K V}, Reach exact s a → AllHashed eff s →
      (∀ l, l.Sublist ops → Guarded a s l) → ∀ u, ∃ mask : List Bool, mask.length = ops.length ∧
      (runM (IndexEff.step eff) ⟨s, u⟩ ops).2.index = (runM Index.step s (pick mask ops)).2 ∧
      pick mask (runM (IndexEff.step eff) ⟨s, u⟩ ops).1 = (runM Index.step s (pick mask ops)).1 ∧
      ∀ r ∈ pick (mask.map (!·)) (runM (IndexEff.step eff) ⟨s, u⟩ ops).1, ∃ e, r = .error e := by
  intro ops
  induction ops with
  | nil => exact fun _ _ _ u => ⟨[], rfl, rfl, rfl, fun r hr => by cases hr⟩
  | cons o os ih =>
    intro s a h hK hg u
    have hgo : Guard o a := (hg [o] (by simp)).1
    rcases C107_steady_partial h hgo hE hS hK u with ⟨e, u', -, he⟩ | ⟨h1, h2, h3⟩
    · obtain ⟨mask, m1, m2, m3, m4⟩ := ih h hK (fun l hl => hg l (hl.cons o)) u'
      refine ⟨false :: mask, by simp [m1], ?_, ?_, ?_⟩
      · simp only [runM, he, Res.state]; exact m2
      · simp only [runM, he, Res.state]; exact m3
      · simp only [runM, he, Res.state, Res.out, List.map_cons, Bool.not_false, pick]
        intro r hr
        rcases List.mem_cons.1 hr with rfl | hr
        · exact ⟨e, rfl⟩
        · exact m4 r hr
    · have ht : (IndexEff.step eff o ⟨s, u⟩).state = ⟨(Index.step o s).state, (IndexEff.step eff o ⟨s, u⟩).state.ext⟩ := by
        rw [← h2]
      obtain ⟨mask, m1, m2, m3, m4⟩ := ih (.call o h hgo) h3 (fun l hl => (hg (o :: l) (hl.cons_cons o)).2)
        (IndexEff.step eff o ⟨s, u⟩).state.ext
      rw [← ht] at m2 m3 m4
      refine ⟨true :: mask, by simp [m1], ?_, ?_, ?_⟩
      · simp only [runM, pick]; exact m2
      · simp only [runM, pick]; rw [m3, h1]
      · simp only [runM, List.map_cons, Bool.not_true, pick]; exact m4

namespace IndexEffProof

/-- A hash function that throws when it is called for the `n`-th time (a key that was changed meanwhile, say). -/
def lapsing (n : Nat) : Effects Nat Int where
  hash f k := ⟨fun u => if u = n then .err .illegalState (u + 1) else .ok (f k) (u + 1)⟩
  eq f a b := ⟨fun u => .ok (f a b) u⟩

/-- A hash function that cannot hash 7, and an equality function that throws every third time. -/
def picky : Effects Nat Int where
  hash f k := ⟨fun u => if k = 7 then .err .nullPointer u else .ok (f k) u⟩
  eq f a b := ⟨fun u => if u % 3 = 2 then .err .illegalState (u + 1) else .ok (f a b) (u + 1)⟩

/-- A map from ints to ints with 4 buckets and load factor 3/4. -/
def small : Option (Index Int Int) :=
  match Index.new (fun k : Int => BitVec.ofInt 32 k) (· == ·) 4 3 4 with
  | .ok s => some s
  | .error _ => none

def runSmall {σ : Type} (eff : Effects σ Int) (u : σ) (ops : List (Op Int Int)) :
    Option (List (Except Err (Out Int Int)) × σ) :=
  small.map fun s => ((runM (IndexEff.step eff) ⟨s, u⟩ ops).1, (runM (IndexEff.step eff) ⟨s, u⟩ ops).2.ext)

theorem honest_lapsing (n : Nat) : Honest (lapsing n) where
  hash f k u r u' h := by
    simp only [lapsing] at h
    split at h <;> cases h
    rfl
  eq _ _ _ _ _ _ h := by cases h; rfl

end IndexEffProof

/-- C107 fails for a hash function that throws for a key it hashed before: the exception that interrupts a growth
loses the keys that were not yet moved (here 2 and 3), though `size` still counts them. -/
theorem C107_refuted : Honest (lapsing 5) ∧
    runSmall (lapsing 5) 0 [.put 1 10, .put 2 20, .put 3 30, .put 4 40, .containsKey 1, .containsKey 2, .containsKey 3,
      .size, .forEach] =
    some ([.ok (.int 0), .ok (.int 1), .ok (.int 2), .error .illegalState, .ok (.bool true), .ok (.bool false),
      .ok (.bool false), .ok (.int 3), .ok (.keys [1])], 9) :=
  ⟨honest_lapsing 5, by rfl⟩

/-- The same history without the exception, and counted: 3 hashes, then 1 + 3 + 1 while the map grows, then 1 for each
of the three calls after it, with one comparison for 2 (with itself) and for 12 (with 4). -/
example : runSmall counting (0, 0) [.put 1 10, .put 2 20, .put 3 30, .put 4 40, .containsKey 2, .containsKey 12,
      .remove 5, .size] =
    some ([.ok (.int 0), .ok (.int 1), .ok (.int 2), .ok (.int 3), .ok (.bool true), .ok (.bool false),
      .ok (.int (-1)), .ok (.int 4)], (11, 2)) := by rfl

/-- `picky` meets the hypotheses of C107_steady_partial. -/
example : Honest picky ∧ Steady picky where
  left := {
    hash := fun f k u r u' h => by
      simp only [picky] at h
      split at h <;> cases h
      rfl
    eq := fun f a b u r u' h => by
      simp only [picky] at h
      split at h <;> cases h
      rfl }
  right := by
    rintro f k ⟨u, u', h⟩ v
    simp only [picky] at h ⊢
    split at h
    · cases h
    · rename_i hk; exact ⟨v, if_neg hk⟩

/-- A run with `picky`: the second, fifth and sixth call throw and are forgotten. -/
example : runSmall picky 0 [.put 1 10, .put 7 70, .put 5 50, .put 2 20, .containsKey 7, .get 1, .get 5, .get 5, .size,
      .forEach] =
    some ([.ok (.int 0), .error .nullPointer, .ok (.int 1), .ok (.int 2), .error .nullPointer,
      .error .illegalState, .ok (.val 50), .ok (.val 50), .ok (.int 3), .ok (.keys [5, 1, 2])], 5) := by rfl

end Verif
