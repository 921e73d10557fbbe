import Verif.Proofs.Index3
/-! Proofs about the indexed map, part 4: add. -/
set_option linter.unusedSectionVars false
namespace Verif
namespace Index
open IndexSpec
variable {K V : Type} [Inhabited K] [Inhabited V]

/-- The table is ready to register the entry `e` (allocated, and rehashed if necessary). -/
structure Ready (tight : Prop) (s : Index K V) (a : Abs K V) (e : Int) (F : List Int) : Prop where
  cap : ∃ k : Nat, s.capacity = 2 ^ k ∧ k ≤ 29
  nlen : (s.nexts.len : Int) = s.capacity
  klen : (s.keys.len : Int) = s.capacity
  vlen : (s.values.len : Int) = s.capacity
  hlen : 1 ≤ s.heads.len ∧ s.heads.len ≤ 2 ^ 29
  lf : 0 < s.lfNum ∧ s.lfNum ≤ s.lfDen
  thr : s.capThreshold = threshold s.capacity s.lfNum s.lfDen ∨
    (s.capacity = 2 ^ 29 ∧ s.capThreshold = 2 ^ 29)
  size : s.size = a.rows.length
  next : s.nextUnusedEntry = max a.next (e + 1)
  he0 : 0 ≤ e
  he1 : e < s.nexts.len
  rowsOk : ∀ r, r ∈ a.rows ∨ r ∈ a.reserved →
    s.keys.get r.entry = r.key ∧ s.values.get r.entry = r.val
  hash : s.hashFunc = a.hash
  eq : s.equalFunc = a.eq
  chained : Chained s.heads s.nexts (hdAt s) a.live
  maxHead : 0 ≤ s.maxHead ∧ ∀ x ∈ a.live, hdAt s x ≤ s.maxHead
  free : Path s.nexts s.freeList F (-1)
  freeSub : ∀ x ∈ F, x ∈ a.free ∧ x ≠ e
  leak : ∀ x ∈ a.free, x ≠ e → x ∈ F ∨ x < 29
  room : s.nextUnusedEntry ≤ s.capThreshold ∨ (2 : Int) ^ s.nextUnusedEntry.toNat ≤ s.capacity
  tight : tight → (s.lfDen : Int) ≤ 2 * s.capacity * s.lfNum ∧
    s.nextUnusedEntry ≤ s.capThreshold ∧ F = a.free.filter (· ≠ e)
  ends : ∀ x : Int, 0 ≤ x → x < s.nexts.len → Ends s.nexts s.heads.len x

theorem perm_insert {tight : Prop} {s : Index K V} {a : Abs K V} {F : List Int}
    (hI : Inv tight s a F) {e : Int} (he : e ∈ a.free ∨ e = a.next) (k : K) (v : V) :
    ((a.insert e k v).live ++ (a.insert e k v).held ++ (a.insert e k v).free).Perm
      ((List.range (a.insert e k v).next.toNat).map Int.ofNat) := by
  show (e :: a.live ++ a.held ++ a.free.filter (· ≠ e)).Perm
    ((List.range (max a.next (e + 1)).toNat).map Int.ofNat)
  have hn0 := hI.next0
  rcases he with he | rfl
  · have hr := (hI.mem_range e).1 (.inr (.inr he))
    have e1 : max a.next (e + 1) = a.next := by omega
    rw [e1]
    refine List.Perm.trans ?_ hI.perm
    have := perm_filter_ne hI.free_nodup he
    refine List.Perm.trans ?_ (List.Perm.append_left _ this.symm)
    exact List.perm_middle.symm
  · have hnf : a.next ∉ a.free := by
      intro hh
      have := (hI.mem_range _).1 (.inr (.inr hh)); omega
    have e1 : max a.next (a.next + 1) = a.next + 1 := by omega
    have e2 : (a.next + 1).toNat = a.next.toNat + 1 := by omega
    have e3 : a.free.filter (· ≠ a.next) = a.free := by
      rw [List.filter_eq_self]
      intro x hx
      simp only [decide_eq_true_eq]
      rintro rfl; exact hnf hx
    rw [e1, e2, e3, List.range_succ, List.map_append]
    have e4 : [a.next.toNat].map Int.ofNat = [a.next] := by simp; omega
    rw [e4]
    refine List.Perm.trans ?_ List.perm_append_comm
    exact List.Perm.cons _ hI.perm

theorem find_none_distinct {a : Abs K V} {k : K} (hk : a.find k = none) :
    ∀ r ∈ a.rows, a.eq k r.key = false := by
  intro r hr
  have := List.find?_eq_none.1 hk r hr
  simpa using this

/-- The state after `e` has been registered for `k` with value `v`. -/
theorem inv_register {tight : Prop} {s0 s : Index K V} {a : Abs K V} {F0 F : List Int}
    (hI : Inv tight s0 a F0) {e : Int} {k : K} (hc : Coherent a.hash a.eq) (hk : a.find k = none)
    (he : e ∈ a.free ∨ e = a.next) (hR : Ready tight s a e F) (v : V) (md : Int) :
    Inv tight { s with
      heads := s.heads.set (headOf s.hashFunc s.heads.len k) e
      nexts := s.nexts.set e (if s.heads.get (headOf s.hashFunc s.heads.len k) ≥ 0 then
        s.heads.get (headOf s.hashFunc s.heads.len k) else -(headOf s.hashFunc s.heads.len k) - 1)
      keys := s.keys.set e k
      maxHead := if headOf s.hashFunc s.heads.len k > s.maxHead then
        headOf s.hashFunc s.heads.len k else s.maxHead
      size := s.size + 1
      values := s.values.set e v
      modificationCount := md } (a.insert e k v) F := by
  have hr := headOf_range s.hashFunc hR.hlen.1 hR.hlen.2 k
  have heL : e ∉ a.live := by
    intro hh
    rcases he with he | rfl
    · exact hI.live_free hh he
    · have := (hI.mem_range _).1 (.inl hh); omega
  have heH : e ∉ a.held := by
    intro hh
    rcases he with he | rfl
    · exact hI.held_free hh he
    · have := (hI.mem_range _).1 (.inr (.inl hh)); omega
  have hhd : ∀ x, x ≠ e →
      headOf s.hashFunc s.heads.len ((s.keys.set e k).get x) = hdAt s x := by
    intro x hx
    rw [Arr.get_set_ne _ _ hx]; rfl
  have heF : e ∉ F := fun hh => (hR.freeSub e hh).2 rfl
  generalize hi : headOf s.hashFunc s.heads.len k = i at *
  have hch : Chained (s.heads.set i e)
      (s.nexts.set e (if s.heads.get i ≥ 0 then s.heads.get i else -i - 1))
      (fun x => headOf s.hashFunc s.heads.len ((s.keys.set e k).get x)) (e :: a.live) := by
    refine Chained.register ?_ heL hR.he0 hR.he1 hr.1 hr.2 ?_
    · refine hR.chained.congr (fun _ => Iff.rfl) ?_
      intro x hx
      exact hhd x (fun hh => heL (hh ▸ hx))
    · simp only [Arr.get_set_self]; exact hi
  refine { cap := hR.cap, nlen := hR.nlen, klen := hR.klen, vlen := hR.vlen, hlen := hR.hlen,
           lf := hR.lf, thr := hR.thr, size := ?_, next := hR.next, next0 := ?_,
           perm := perm_insert hI he k v,
           rowsOk := ?_, distinct := ?_, coherent := fun _ => hc, hash := hR.hash, eq := hR.eq,
           chained := hch, maxHead := ?_, free := hR.free.set_notin heF, freeSub := ?_, leak := ?_,
           room := hR.room, tight := ?_, ends := ?_ }
  · simp only [Abs.insert, List.length_cons, hR.size]; omega
  · show 0 ≤ max a.next (e + 1)
    have := hI.next0; omega
  · intro r hr'
    by_cases hre : r.entry = e
    · have : r = ⟨e, k, v⟩ := by
        rcases hr' with hr' | hr'
        · rcases List.mem_cons.1 hr' with rfl | hr'
          · rfl
          · exact absurd (mem_live hr') (hre ▸ heL)
        · exact absurd (List.mem_map_of_mem (f := Row.entry) hr') (hre ▸ heH)
      subst this
      simp
    · simp only [Arr.get_set_ne _ _ hre]
      refine hR.rowsOk r ?_
      rcases hr' with hr' | hr'
      · rcases List.mem_cons.1 hr' with rfl | hr'
        · exact absurd rfl hre
        · exact .inl hr'
      · exact .inr hr'
  · exact List.Pairwise.cons (fun r hr => find_none_distinct hk r hr) hI.distinct
  · constructor
    · have := hR.maxHead.1
      show 0 ≤ if i > s.maxHead then i else s.maxHead
      split <;> omega
    · intro x hx
      have hx' : x ∈ e :: a.live := hx
      show headOf s.hashFunc s.heads.len ((s.keys.set e k).get x) ≤
        if i > s.maxHead then i else s.maxHead
      rcases List.mem_cons.1 hx' with rfl | hx'
      · rw [Arr.get_set_self, hi]; split <;> omega
      · rw [hhd x (fun hh => heL (hh ▸ hx'))]
        have := hR.maxHead.2 x hx'
        split <;> omega
  · intro x hx
    obtain ⟨h1, h2⟩ := hR.freeSub x hx
    show x ∈ a.free.filter (· ≠ e)
    simp [h1, h2]
  · intro x hx
    have hx' : x ∈ a.free.filter (· ≠ e) := hx
    simp only [List.mem_filter, decide_eq_true_eq] at hx'
    exact hR.leak x hx'.1 hx'.2
  · intro ht
    obtain ⟨h1, h2, h3⟩ := hR.tight ht
    exact ⟨h1, h2, h3⟩
  · intro x h0 h1
    refine Ends.set (Nat.le_refl _) ?_ (hR.ends x h0 h1)
    refine Ends.cons hR.he0 hR.he1 ?_
    rw [Arr.get_set_self]
    by_cases hh : s.heads.get i ≥ 0
    · rw [if_pos hh]
      obtain ⟨l, t, hp, ht, hm⟩ := hR.chained i hr.1 hr.2
      obtain ⟨l', hl', _⟩ := hp.nonneg_cons hh
      have ht' := ht (by rw [hl']; simp)
      have hh2 : e ∉ l := fun hh => heL ((hm e).1 hh).1
      exact Ends.path (hp.set_notin hh2) (by
        show -(s.heads.len : Int) ≤ t
        omega)
    · rw [if_neg hh]
      exact Ends.of_neg (by omega) (by
        show -(s.heads.len : Int) ≤ -i - 1
        omega)

theorem threshold_double {c : Int} {num den : Nat} (hd : 0 < den) :
    2 * threshold c num den ≤ threshold (2 * c) num den := by
  unfold threshold
  apply Int.le_ediv_of_mul_le (by omega)
  have h1 : c * num / den * den ≤ c * num := Int.ediv_mul_le _ (by omega)
  have e1 : 2 * (c * num / den) * den = 2 * (c * num / den * den) := Int.mul_assoc _ _ _
  have e2 : 2 * c * num = 2 * (c * num) := Int.mul_assoc _ _ _
  rw [e1, e2]; omega

theorem threshold_pos {c : Int} {num den : Nat} (hd : 0 < den) (h : (den : Int) ≤ c * num) :
    1 ≤ threshold c num den := by
  unfold threshold
  apply Int.le_ediv_of_mul_le (by omega)
  omega

theorem chained_ends {heads nexts : Arr Int} {hd : Int → Int} {S : List Int}
    (hch : Chained heads nexts hd S) (hr : ∀ x ∈ S, 0 ≤ hd x ∧ hd x < heads.len)
    (h1 : 1 ≤ heads.len) (hn : ∀ x, x ∉ S → nexts.get x = -1) :
    ∀ x : Int, 0 ≤ x → x < nexts.len → Ends nexts heads.len x := by
  intro x h0 hx
  by_cases hS : x ∈ S
  · obtain ⟨l, t, hp, ht, hm⟩ := hch.chain_of hS (hr x hS).1 (hr x hS).2
    obtain ⟨l1, l2, _, hp2⟩ := hp.suffix hm
    have := (hr x hS).2
    exact Ends.path hp2 (by omega)
  · refine Ends.cons h0 hx ?_
    rw [hn x hS]
    exact Ends.of_neg (by decide) (by omega)

/-- Allocation, and rehash if necessary. -/
theorem alloc_spec {tight : Prop} {s : Index K V} {a : Abs K V} {F : List Int}
    (hI : Inv tight s a F) (hb : a.rows.length + a.reserved.length + 29 < 2 ^ 29) :
    ∃ e s1 s2 F2, allocateNewEntry s = .ok e s1 ∧
      ((e < s1.capThreshold ∧ s2 = s1) ∨ (e ≥ s1.capThreshold ∧ rehash s1 = .ok () s2)) ∧
      Ready tight s2 a e F2 ∧ (e ∈ a.free ∨ e = a.next) ∧
      ((tight → e = a.alloc) ∧ (∀ x F', F = x :: F' → e = x) ∧
        (e = a.next → a.next ≤ a.rows.length + a.reserved.length + 29)) ∧
      s1.heads = s.heads ∧ s1.hashFunc = s.hashFunc ∧ s2.size = s.size ∧
      (s2.modificationCount = s.modificationCount ∨
       s2.modificationCount = i32 (s.modificationCount + 1)) := by
  have hn0 := hI.next0
  have hnx := hI.next
  have hcp := hI.cap_pos
  have hnl := hI.next_le
  have hthr := hI.thr_le
  have hnlen := hI.nlen
  have hden : 0 < s.lfDen := by have := hI.lf; omega
  obtain ⟨k, hcap, hk⟩ := hI.cap
  have e29 := pow2_29
  -- the entry, the state and free list after allocation
  obtain ⟨e, s1, F1, hal, hs1, hF1, hmem, hexact, hnext, hsub1, hleak1⟩ :
      ∃ e s1 F1, allocateNewEntry s = .ok e s1 ∧
        (s1 = { s with freeList := s1.freeList, nextUnusedEntry := s1.nextUnusedEntry }) ∧
        Path s.nexts s1.freeList F1 (-1) ∧
        ((e ∈ a.free ∧ F = e :: F1 ∧ s1.nextUnusedEntry = s.nextUnusedEntry ∧ e < a.next) ∨
          (e = a.next ∧ F = [] ∧ F1 = [] ∧ s1.nextUnusedEntry = s.nextUnusedEntry + 1)) ∧
        (tight → e = a.alloc) ∧ s1.nextUnusedEntry = max a.next (e + 1) ∧
        (∀ x ∈ F1, x ∈ a.free ∧ x ≠ e) ∧ (∀ x ∈ a.free, x ≠ e → x ∈ F1 ∨ x < 29) := by
    cases F with
    | nil =>
      have hfl := hI.free.1
      refine ⟨s.nextUnusedEntry, { s with nextUnusedEntry := s.nextUnusedEntry + 1 }, [], ?_, rfl,
        hI.free, .inr ⟨hnx, rfl, rfl, rfl⟩, ?_, ?_, by simp, ?_⟩
      · unfold allocateNewEntry
        rw [JM.bind_ok (JM.get_apply _), if_neg (by rw [hfl]; simp), JM.bind_ok (JM.modify_apply _ _)]
        rfl
      · intro ht
        have := (hI.tight ht).2.2
        unfold Abs.alloc
        rw [← this]; exact hnx
      · simp only; omega
      · intro x hx _
        rcases hI.leak x hx with h | h
        · simp at h
        · exact .inr h
    | cons x F' =>
      obtain ⟨hfl, hx0, hx1, hp⟩ := hI.free
      have hxf := hI.freeSub x (by simp)
      have hxr := (hI.mem_range x).1 (.inr (.inr hxf))
      have hnd := (List.nodup_cons.1 hI.free.nodup).1
      refine ⟨x, { s with freeList := s.nexts.get x }, F', ?_, rfl, hp,
        .inl ⟨hxf, rfl, rfl, hxr.2⟩, ?_, ?_, ?_, ?_⟩
      · unfold allocateNewEntry
        rw [JM.bind_ok (JM.get_apply _), if_pos (by rw [hfl]; omega), hfl,
          JM.bind_ok (rd_ok _ ⟨hx0, hx1⟩), JM.bind_ok (JM.modify_apply _ _)]
        rfl
      · intro ht
        have := (hI.tight ht).2.2
        unfold Abs.alloc
        rw [← this]
      · simp only; omega
      · intro y hy
        exact ⟨hI.freeSub y (by simp [hy]), fun hh => hnd (hh ▸ hy)⟩
      · intro y hy hne
        rcases hI.leak y hy with h | h
        · rcases List.mem_cons.1 h with h | h
          · exact absurd h hne
          · exact .inl h
        · exact .inr h
  have he0 : 0 ≤ e := by
    rcases hmem with ⟨h1, _, _, h2⟩ | ⟨h1, _⟩
    · exact ((hI.mem_range e).1 (.inr (.inr h1))).1
    · omega
  have hmem' : e ∈ a.free ∨ e = a.next := by
    rcases hmem with ⟨h1, _⟩ | ⟨h1, _⟩
    · exact .inl h1
    · exact .inr h1
  -- there is room
  have hcnt : a.next ≤ a.rows.length + a.reserved.length + 29 ∨ e < a.next := by
    rcases hmem with ⟨_, _, _, h2⟩ | ⟨h1, hF, _⟩
    · exact .inr h2
    · left
      have hc := hI.count
      have hfl : a.free.length ≤ 29 := by
        have h1 : (a.free.map Int.toNat).Nodup := by
          refine List.Nodup.map_on ?_ hI.free_nodup
          intro p hp q hq e
          have := (hI.mem_range p).1 (.inr (.inr hp))
          have := (hI.mem_range q).1 (.inr (.inr hq)); omega
        have h2 : (a.free.map Int.toNat) ⊆ List.range 29 := by
          intro p hp
          obtain ⟨q, hq, rfl⟩ := List.mem_map.1 hp
          have := (hI.mem_range q).1 (.inr (.inr hq))
          rcases hI.leak q hq with h | h
          · rw [hF] at h; simp at h
          · exact List.mem_range.2 (by omega)
        have := (List.Nodup.subperm h1 h2).length_le
        simpa using this
      omega
  have hlt : e < 2 ^ 29 ∧ a.next + 1 ≤ 2 ^ 29 ∨ e < a.next := by
    rcases hcnt with h | h
    · rcases hmem' with h' | h'
      · exact .inr ((hI.mem_range e).1 (.inr (.inr h'))).2
      · left; omega
    · exact .inr h
  have hexact : (tight → e = a.alloc) ∧ (∀ x F', F = x :: F' → e = x) ∧
      (e = a.next → a.next ≤ a.rows.length + a.reserved.length + 29) := by
    refine ⟨hexact, ?_, ?_⟩
    · intro x F' hF
      rcases hmem with ⟨_, h2, _⟩ | ⟨_, h2, _⟩
      · rw [hF] at h2; exact (List.cons.inj h2).1.symm
      · rw [hF] at h2; simp at h2
    · intro hen
      rcases hcnt with h | h
      · exact h
      · omega
  have hs1h : s1.heads = s.heads ∧ s1.nexts = s.nexts ∧ s1.keys = s.keys ∧ s1.values = s.values ∧
      s1.capacity = s.capacity ∧ s1.capThreshold = s.capThreshold ∧ s1.lfNum = s.lfNum ∧
      s1.lfDen = s.lfDen ∧ s1.size = s.size ∧ s1.hashFunc = s.hashFunc ∧ s1.equalFunc = s.equalFunc ∧
      s1.maxHead = s.maxHead ∧ s1.modificationCount = s.modificationCount := by
    rw [hs1]; simp
  obtain ⟨q1, q2, q3, q4, q5, q6, q7, q8, q9, q10, q11, q12, q13⟩ := hs1h
  have hdEq : hdAt s1 = hdAt s := by funext x; unfold hdAt; rw [q10, q1, q3]
  by_cases hge : e < s1.capThreshold
  · -- no rehash
    refine ⟨e, s1, s1, F1, hal, .inl ⟨hge, rfl⟩, ?_, hmem', hexact, q1, q10, q9, .inl q13⟩
    rw [q6] at hge
    refine { cap := by rw [q5]; exact hI.cap, nlen := by rw [q2, q5]; exact hnlen,
             klen := by rw [q3, q5]; exact hI.klen, vlen := by rw [q4, q5]; exact hI.vlen,
             hlen := by rw [q1]; exact hI.hlen, lf := by rw [q7, q8]; exact hI.lf,
             thr := by rw [q5, q6, q7, q8]; exact hI.thr, size := by rw [q9]; exact hI.size,
             next := hnext, he0 := he0, he1 := by rw [q2]; omega,
             rowsOk := by rw [q3, q4]; exact hI.rowsOk, hash := by rw [q10]; exact hI.hash,
             eq := by rw [q11]; exact hI.eq,
             chained := by rw [hdEq, q1, q2]; exact hI.chained,
             maxHead := by rw [q12, hdEq]; exact hI.maxHead,
             free := by rw [q2]; exact hF1, freeSub := hsub1, leak := hleak1,
             room := ?_, tight := ?_, ends := by rw [q1, q2]; exact hI.ends }
    · rw [q5, q6]
      rcases hmem with ⟨_, _, h3, _⟩ | ⟨h1, _, _, h3⟩
      · rw [h3]; exact hI.room
      · left; omega
    · intro ht
      obtain ⟨t1, t2, t3⟩ := hI.tight ht
      rw [q5, q6, q7, q8]
      refine ⟨t1, ?_, ?_⟩
      · rcases hmem with ⟨_, _, h3, _⟩ | ⟨h1, _, _, h3⟩
        · omega
        · omega
      · rcases hmem with ⟨h1, h2, _⟩ | ⟨h1, h2, h3, _⟩
        · have hnd := hI.free_nodup
          rw [← t3, h2] at hnd ⊢
          have hnd1 := (List.nodup_cons.1 hnd).1
          rw [List.filter_cons_of_neg (by simp), List.filter_eq_self.2]
          intro x hx
          simp only [decide_eq_true_eq]
          rintro rfl; exact hnd1 hx
        · rw [← t3, h2, h3]; rfl
  · -- rehash
    have hge' : e ≥ s.capThreshold := by rw [q6] at hge; omega
    have hmax : s1.capacity < 2 ^ 29 ∨ s1.capThreshold ≠ 2 ^ 29 := by
      rw [q5, q6]
      by_cases hc : s.capacity < 2 ^ 29
      · exact .inl hc
      · right
        intro hh
        rcases hlt with ⟨h1, _⟩ | h1
        · omega
        · omega
    obtain ⟨k', t, h, n, m, ks, vs, hkk, hk29, hreh, hkt, nl, kl, vl, hln, hkv, hch, hm0, hmx, hneg⟩ :=
      rehash_spec (s := s1) (S := a.live) (k := k) (by rw [q5]; exact hcap) hk
        (by rw [q7, q8]; exact hI.lf) hmax (by rw [q2, q5]; exact hnlen)
        (by rw [q3, q5]; exact hI.klen) (by rw [q4, q5]; exact hI.vlen) (by rw [q1]; exact hI.hlen)
        (by rw [hdEq, q1, q2]; exact hI.chained) (by rw [q12, hdEq]; exact hI.maxHead)
    have hp' : (1 : Int) ≤ 2 ^ k' := Int.pow_pos (by decide)
    have hple : (2 : Int) ^ k ≤ 2 ^ k' := pow2_le hkk
    have hp29 : (2 : Int) ^ k' ≤ 2 ^ 29 := pow2_le hk29
    -- how large the new capacity is
    have hbig : ((2 : Int) ^ k' = 2 * 2 ^ k ∧ t = threshold (2 * 2 ^ k) s.lfNum s.lfDen) ∨
        ((2 : Int) ^ k' = 2 ^ 29 ∧ (2 : Int) ^ k = 2 ^ 29 ∧ t = 2 ^ 29) := by
      rcases hkt with ⟨h1, h2⟩ | ⟨h1, h2, h3⟩
      · left
        have : (2 : Int) ^ k' = 2 * 2 ^ k := by rw [h1, Int.pow_succ]; omega
        refine ⟨this, ?_⟩
        rw [h2, this, q7, q8]
      · right
        exact ⟨by rw [h1, h2], by rw [h2], h3⟩
    have he1 : e < (n.len : Int) := by
      rw [nl]
      rcases hmem with ⟨_, _, _, h2⟩ | ⟨h1, _⟩
      · omega
      · rcases hbig with ⟨h2, _⟩ | ⟨h2, _⟩
        · omega
        · rcases hlt with ⟨h3, _⟩ | h3 <;> omega
    have hleq : h.len = n.len := hln
    have hNl : 1 ≤ h.len ∧ h.len ≤ 2 ^ 29 := by
      constructor
      · omega
      · have : (h.len : Int) ≤ 536870912 := by rw [hleq, nl]; omega
        omega
    have hchE : ∀ x : Int, x ∈ a.live → ks.get x = s.keys.get x ∧ vs.get x = s.values.get x := by
      intro x hx
      have := hkv x (by rw [q2]; exact (hI.live_range hx).2)
      rw [q3, q4] at this; exact this
    have hchE' : ∀ x : Int, x ∈ a.held → ks.get x = s.keys.get x ∧ vs.get x = s.values.get x := by
      intro x hx
      have := hkv x (by rw [q2]; exact (hI.held_range hx).2)
      rw [q3, q4] at this; exact this
    -- the surviving part of the free list
    obtain ⟨F2, hF2, hF2sub, hF2len⟩ : ∃ F2, Path n s1.freeList F2 (-1) ∧ (∀ x ∈ F2, x ∈ F1) ∧
        (F1 = [] → F2 = []) := by
      cases hF1c : F1 with
      | nil =>
        rw [hF1c] at hF1
        exact ⟨[], hF1, by simp, by simp⟩
      | cons x F' =>
        rw [hF1c] at hF1
        obtain ⟨p1, p2, p3, p4⟩ := hF1
        have hxf := (hsub1 x (by rw [hF1c]; simp)).1
        refine ⟨[x], ⟨p1, p2, ?_, ?_⟩, by simp, by simp⟩
        · have := (hI.mem_range x).1 (.inr (.inr hxf)); omega
        · rw [hneg x (fun hh => hI.live_free hh hxf)]
          exact ⟨rfl, by decide⟩
    -- the number of entries in a table that loses free entries is small
    have hsmall : e ∈ a.free → (2 : Int) ^ s.nextUnusedEntry.toNat ≤ 2 ^ k ∧ a.next ≤ 29 := by
      intro hef
      have hlt' := ((hI.mem_range e).1 (.inr (.inr hef))).2
      rcases hI.room with hr | hr
      · omega
      · refine ⟨by rw [← hcap]; exact hr, ?_⟩
        by_contra hcon
        have : (2 : Int) ^ 29 < 2 ^ s.nextUnusedEntry.toNat := pow2_lt (by omega)
        omega
    refine ⟨e, s1, _, F2, hal, .inr ⟨by omega, hreh⟩, ?_, hmem', hexact, q1, q10, q9, .inr ?_⟩
    swap
    · simp only; rw [q13]
    refine { cap := ⟨k', rfl, hk29⟩, nlen := nl, klen := kl, vlen := vl, hlen := hNl,
             lf := by simp only; rw [q7, q8]; exact hI.lf,
             thr := ?_, size := by simp only; rw [q9]; exact hI.size,
             next := hnext, he0 := he0, he1 := he1,
             rowsOk := ?_, hash := by simp only; rw [q10]; exact hI.hash,
             eq := by simp only; rw [q11]; exact hI.eq,
             chained := ?_, maxHead := ?_,
             free := hF2, freeSub := fun x hx => hsub1 x (hF2sub x hx), leak := ?_,
             room := ?_, tight := ?_, ends := ?_ }
    · rcases hkt with ⟨h1, h2⟩ | ⟨h1, h2, h3⟩
      · exact .inl h2
      · right; exact ⟨by simp only; rw [h1, h2], h3⟩
    · intro r hr
      have h1 := hI.rowsOk r hr
      rcases hr with hr | hr
      · obtain ⟨g1, g2⟩ := hchE r.entry (mem_live hr)
        simp only; rw [g1, g2]; exact h1
      · obtain ⟨g1, g2⟩ := hchE' r.entry (List.mem_map_of_mem hr)
        simp only; rw [g1, g2]; exact h1
    · refine hch.congr (fun _ => Iff.rfl) ?_
      intro x hx
      show headOf s1.hashFunc h.len (ks.get x) = _
      rw [(hchE x hx).1, q3]
    · refine ⟨hm0, ?_⟩
      intro x hx
      show headOf s1.hashFunc h.len (ks.get x) ≤ m
      rw [(hchE x hx).1, ← q3]
      exact hmx x hx
    · intro x hx hne
      rcases hmem with ⟨h1, h2, h3, h4⟩ | ⟨h1, h2, h3, h4⟩
      · right
        have := (hsmall h1).2
        have := (hI.mem_range x).1 (.inr (.inr hx))
        omega
      · rcases hI.leak x hx with h | h
        · rw [h2] at h; simp at h
        · exact .inr h
    · simp only
      rcases hmem with ⟨h1, h2, h3, h4⟩ | ⟨h1, h2, h3, h4⟩
      · right
        rw [h3]
        have := (hsmall h1).1
        omega
      · rw [h4]
        rcases hbig with ⟨g1, g2⟩ | ⟨g1, g2, g3⟩
        · rcases hI.room with hr | hr
          · -- the threshold was reached
            by_cases hz : s.nextUnusedEntry = 0
            · right
              rw [hz, g1]
              have : (1 : Int) ≤ 2 ^ k := Int.pow_pos (by decide)
              show (2 : Int) ^ 1 ≤ _
              omega
            · left
              rw [g2]
              have hd := threshold_double (c := 2 ^ k) (num := s.lfNum) hden
              rcases hI.thr with ht | ⟨ht, ht2⟩
              · rw [hcap] at ht
                omega
              · exfalso; rcases hlt with ⟨l1, l2⟩ | l1 <;> omega
          · right
            have e1 : (s.nextUnusedEntry + 1).toNat = s.nextUnusedEntry.toNat + 1 := by omega
            rw [e1, Int.pow_succ, g1]
            omega
        · left
          rw [g3]
          rcases hlt with ⟨l1, l2⟩ | l1 <;> omega
    · intro ht
      obtain ⟨t1, t2, t3⟩ := hI.tight ht
      simp only
      rw [q7, q8]
      rcases hmem with ⟨h1, h2, h3, h4⟩ | ⟨h1, h2, h3, h4⟩
      · exfalso; omega
      · refine ⟨?_, ?_, ?_⟩
        · refine Int.le_trans t1 ?_
          rw [hcap]
          exact Int.mul_le_mul_of_nonneg_right (by omega) (by omega)
        · rw [h4]
          rcases hbig with ⟨g1, g2⟩ | ⟨g1, g2, g3⟩
          · rw [g2]
            have hpos := threshold_pos (c := 2 * 2 ^ k) (num := s.lfNum) hden (by rw [← hcap]; exact t1)
            have hd := threshold_double (c := 2 ^ k) (num := s.lfNum) hden
            rcases hI.thr with ht | ⟨ht, ht2⟩
            · rw [hcap] at ht
              omega
            · exfalso; rcases hlt with ⟨l1, l2⟩ | l1 <;> omega
          · rw [g3]
            rcases hlt with ⟨l1, l2⟩ | l1 <;> omega
        · rw [hF2len h3, ← t3, h2]; rfl
    · exact chained_ends hch (fun x _ => headOf_range _ hNl.1 hNl.2 _) hNl.1 hneg

end Index
end Verif
