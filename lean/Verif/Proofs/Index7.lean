import Verif.Proofs.Index6
/-! Proofs about the indexed map, part 7: clear, copyFrom and the constructor. -/
set_option linter.unusedSectionVars false
namespace Verif
namespace Index
open IndexSpec
variable {K V : Type} [Inhabited K] [Inhabited V]
variable {tight : Prop} {s : Index K V} {a : Abs K V} {F : List Int}

theorem heads_empty (h : Inv tight s a F) (hr : a.rows = []) {i : Int} (h0 : 0 ≤ i)
    (h1 : i < s.heads.len) : s.heads.get i < 0 := by
  obtain ⟨l, t, hp, _, hm⟩ := h.chained i h0 h1
  by_contra hc
  obtain ⟨l', hl', _⟩ := hp.nonneg_cons (by omega)
  have := ((hm (s.heads.get i)).1 (by rw [hl']; simp)).1
  simp [Abs.live, hr] at this

theorem size_zero (h : Inv tight s a F) : s.size = 0 ↔ a.rows = [] := by
  rw [h.size]
  constructor
  · intro hh; exact List.length_eq_zero_iff.1 (by omega)
  · intro hh; simp [hh]

theorem clear_spec (h : Inv tight s a F) :
    ∃ s', clear s = .ok () s' ∧
      Inv tight s' { a with rows := [], reserved := [], free := [], next := 0 } [] ∧
      s'.modificationCount = 0 := by
  have hthr := h.thr_le
  -- it is enough to know the arrays
  have key : ∀ s' : Index K V, s'.capacity = s.capacity → s'.capThreshold = s.capThreshold →
      s'.lfNum = s.lfNum → s'.lfDen = s.lfDen → s'.heads.len = s.heads.len →
      s'.nexts.len = s.nexts.len → s'.keys.len = s.keys.len → s'.values.len = s.values.len →
      s'.size = 0 → s'.nextUnusedEntry = 0 → s'.freeList = -1 → s'.maxHead = 0 →
      s'.hashFunc = s.hashFunc → s'.equalFunc = s.equalFunc →
      (∀ i : Int, 0 ≤ i → i < s'.heads.len → s'.heads.get i < 0) →
      (∀ x : Int, 0 ≤ x → x < s'.nexts.len → Ends s'.nexts s'.heads.len x) →
      Inv tight s' { a with rows := [], reserved := [], free := [], next := 0 } [] := by
    intro s' q1 q2 q3 q4 q5 q6 q7 q8 q9 q10 q11 q12 q13 q14 hh he
    refine { cap := by rw [q1]; exact h.cap, nlen := by rw [q6, q1]; exact h.nlen,
             klen := by rw [q7, q1]; exact h.klen, vlen := by rw [q8, q1]; exact h.vlen,
             hlen := by rw [q5]; exact h.hlen, lf := by rw [q3, q4]; exact h.lf,
             thr := by rw [q1, q2, q3, q4]; exact h.thr, size := by rw [q9]; rfl,
             next := q10, next0 := Int.le_refl _, perm := by simp [Abs.live, Abs.held],
             rowsOk := by simp, distinct := by simp, coherent := by simp,
             hash := by rw [q13]; exact h.hash, eq := by rw [q14]; exact h.eq,
             chained := Chained.empty hh, maxHead := by rw [q12]; simp [Abs.live],
             free := ⟨q11, by omega⟩, freeSub := by simp, leak := by simp,
             room := .inl (by rw [q10, q2]; exact hthr.1), tight := ?_, ends := he }
    intro ht
    obtain ⟨t1, _, _⟩ := h.tight ht
    exact ⟨by rw [q1, q3, q4]; exact t1, by rw [q10, q2]; exact hthr.1, rfl⟩
  unfold clear
  rw [JM.bind_ok (JM.get_apply _)]
  have hn0 := h.next0
  have hnx := h.next
  have hmh := h.maxHead.1
  by_cases hz : s.size > 0
  · have hkl := klen_eq h
    have hvl := vlen_eq h
    rw [JM.when_pos hz]
    refine ⟨{ s with
      heads := s.heads.fillRange (-1) 0 (min s.heads.len (s.maxHead + 1))
      nexts := s.nexts.fillRange (-1) 0 (min s.nexts.len s.nextUnusedEntry)
      keys := s.keys.fillRange default 0 (min s.nextUnusedEntry s.keys.len)
      values := s.values.fillRange default 0 (min s.nextUnusedEntry s.values.len)
      size := 0, modificationCount := 0, nextUnusedEntry := 0, freeList := -1, maxHead := 0 },
      ?_, ?_, rfl⟩
    · have : (do
          let h ← fill s.heads (-1) 0 (min s.heads.len (s.maxHead + 1))
          modify fun t => { t with heads := h }
          let n ← fill s.nexts (-1) 0 (min s.nexts.len s.nextUnusedEntry)
          modify fun t => { t with nexts := n }
          let k ← fill s.keys default 0 (min s.nextUnusedEntry s.keys.len)
          modify fun t => { t with keys := k }
          let v ← fill s.values default 0 (min s.nextUnusedEntry s.values.len)
          modify fun t => { t with values := v }
          modify fun t => { t with size := 0 } : JM (Index K V) Unit) s = .ok () { s with
            heads := s.heads.fillRange (-1) 0 (min s.heads.len (s.maxHead + 1))
            nexts := s.nexts.fillRange (-1) 0 (min s.nexts.len s.nextUnusedEntry)
            keys := s.keys.fillRange default 0 (min s.nextUnusedEntry s.keys.len)
            values := s.values.fillRange default 0 (min s.nextUnusedEntry s.values.len)
            size := 0 } := by
        rw [JM.bind_ok (fill_ok _ _ (.inr ⟨by omega, by omega⟩)), JM.bind_ok (JM.modify_apply _ _),
          JM.bind_ok (fill_ok _ _ (.inr ⟨by omega, by omega⟩)), JM.bind_ok (JM.modify_apply _ _),
          JM.bind_ok (fill_ok _ _ (.inr ⟨by omega, by omega⟩)), JM.bind_ok (JM.modify_apply _ _),
          JM.bind_ok (fill_ok _ _ (.inr ⟨by omega, by omega⟩)), JM.bind_ok (JM.modify_apply _ _)]
        rfl
      rw [JM.bind_ok this]
      rfl
    · refine key _ rfl rfl rfl rfl rfl rfl rfl rfl rfl rfl rfl rfl rfl rfl ?_ ?_
      · intro i h0 h1
        simp only [Arr.len_fillRange] at h1
        simp only [Arr.get_fillRange]
        split
        · omega
        · obtain ⟨l, t, hp, _, hm⟩ := h.chained i h0 h1
          by_contra hc
          obtain ⟨l', hl', _⟩ := hp.nonneg_cons (by omega)
          obtain ⟨g1, g2⟩ := (hm (s.heads.get i)).1 (by rw [hl']; simp)
          have := h.maxHead.2 _ g1
          omega
      · intro x h0 h1
        simp only [Arr.len_fillRange] at h1 ⊢
        refine Ends.update (a := s.nexts) (n := s.heads.len) (by simp) (Nat.le_refl _) ?_
          (h.ends x h0 h1)
        intro e g0 g1 hne
        refine Ends.cons g0 (by simpa using g1) ?_
        simp only [Arr.get_fillRange] at hne ⊢
        split at hne
        · rename_i hin
          rw [if_pos hin]
          have := h.hlen.1
          exact Ends.of_neg (by omega) (by omega)
        · exact absurd rfl hne
  · rw [JM.when_neg hz, JM.bind_ok (JM.pure_apply _ _)]
    have hz0 : s.size = 0 := by have := h.size; omega
    refine ⟨_, rfl, ?_, rfl⟩
    refine key _ rfl rfl rfl rfl rfl rfl rfl rfl hz0 rfl rfl rfl rfl rfl ?_ h.ends
    intro i h0 h1
    exact heads_empty h ((size_zero h).1 hz0) h0 h1

/-- A table whose capacity is `2^k`, as the constructor builds it. -/
theorem new_inv (hash : K → BitVec 32) (eq : K → K → Bool) {ic : Int} {num den : Nat}
    {s : Index K V} (hn : new hash eq ic num den = .ok s) :
    Inv ((den : Int) ≤ 2 * nextPowerOf2 ic * num) s (empty hash eq) [] := by
  unfold new at hn
  split at hn
  · simp at hn
  split at hn
  · simp at hn
  rename_i hic hlf
  simp only [Except.ok.injEq] at hn
  rw [MAX_CAPACITY_eq] at hic
  obtain ⟨k, hk30, hk, hge, _⟩ := nextPowerOf2_spec (v := ic) (by omega) (by omega)
  have hle := nextPowerOf2_le_max (v := ic) (by omega) (by omega)
  have hk29 : k ≤ 29 := by
    by_contra hc
    have : k = 30 := by omega
    subst this
    have e30 : ((2 ^ 30 : Nat) : Int) = 1073741824 := by decide
    omega
  rw [cast_pow2] at hk
  have hp : (1 : Int) ≤ 2 ^ k := Int.pow_pos (by decide)
  have hp29 : (2 : Int) ^ k ≤ 2 ^ 29 := pow2_le hk29
  have e29 := pow2_29
  rw [hk] at hn ⊢
  subst hn
  have hthr : 0 ≤ threshold (2 ^ k) num den := by
    unfold threshold
    exact Int.ediv_nonneg (Int.mul_nonneg (by omega) (by omega)) (by omega)
  refine { cap := ⟨k, rfl, hk29⟩, nlen := ?_, klen := ?_, vlen := ?_, hlen := ?_,
           lf := ⟨(by omega : 0 < num), (by omega : num ≤ den)⟩, thr := .inl rfl, size := rfl, next := rfl,
           next0 := Int.le_refl _, perm := by simp [Abs.live, Abs.held, empty],
           rowsOk := by simp [empty], distinct := by simp [empty], coherent := by simp [empty],
           hash := rfl, eq := rfl,
           chained := Chained.empty (fun i _ _ => by simp), maxHead := by simp [Abs.live, empty],
           free := ⟨rfl, by omega⟩, freeSub := by simp, leak := by simp [empty],
           room := .inl hthr, tight := fun ht => ⟨ht, hthr, rfl⟩, ends := ?_ }
  · simp only [Arr.len_create]; omega
  · simp only [Arr.len_create]; omega
  · simp only [Arr.len_create]; omega
  · simp only [Arr.len_create]
    omega
  · intro x h0 h1
    refine Ends.cons h0 h1 ?_
    simp only [Arr.get_create, Arr.len_create]
    exact Ends.of_neg (by omega) (by omega)

theorem threshold_mono {c c' : Int} {num den : Nat} (h : c ≤ c') (hd : 0 < den) :
    threshold c num den ≤ threshold c' num den := by
  unfold threshold
  exact Int.ediv_le_ediv (by omega) (Int.mul_le_mul_of_nonneg_right h (by omega))

theorem headsLike_ok (heads : Arr Int) (n : Nat) (s : Index K V) :
    ∃ h, headsLike heads n s = .ok h s ∧ h.len = n := by
  unfold headsLike
  by_cases hh : (heads.len : Int) ≠ n
  · rw [if_pos hh, newArr_ok _ (by omega)]
    exact ⟨_, rfl, by simp⟩
  · rw [if_neg hh]
    exact ⟨heads, rfl, by omega⟩

theorem roomLike_ok {α : Type} (arr : Arr α) (n : Nat) (x y : α) (s : Index K V) :
    ∃ h, roomLike arr n x y s = .ok h s ∧ h.len = max arr.len n ∧
      ∀ j : Int, n ≤ j → j < h.len → h.get j = y := by
  unfold roomLike
  by_cases hh : (arr.len : Int) < n
  · rw [if_pos hh, newArr_ok _ (by omega)]
    refine ⟨_, rfl, by simp; omega, ?_⟩
    intro j h1 h2
    simp only [Arr.len_create] at h2
    omega
  · rw [if_neg hh, fill_ok _ _ (.inr ⟨by omega, by omega⟩)]
    refine ⟨_, rfl, by simp; omega, ?_⟩
    intro j h1 h2
    simp only [Arr.len_fillRange] at h2
    simp only [Arr.get_fillRange]
    rw [if_pos (by omega)]

theorem valuesLike_ok (arr : Arr V) (n : Nat) (s : Index K V) :
    ∃ h, valuesLike arr n s = .ok h s ∧ h.len = max arr.len n := by
  unfold valuesLike
  by_cases hh : (arr.len : Int) < n
  · rw [if_pos hh, newArr_ok _ (by omega)]
    exact ⟨_, rfl, by simp; omega⟩
  · rw [if_neg hh]
    by_cases h2 : (arr.len : Int) > n
    · rw [if_pos h2, fill_ok _ _ (.inr ⟨by omega, by omega⟩)]
      exact ⟨_, rfl, by simp; omega⟩
    · rw [if_neg h2]
      exact ⟨_, rfl, by omega⟩

/-- `copyFrom` turns any map into a copy of the source, whatever the entries of that map are. -/
theorem copyFrom_lens {tight' : Prop} {src : Index K V} {b : Abs K V} {G : List Int}
    (scap : ∃ j : Nat, s.capacity = 2 ^ j ∧ j ≤ 29) (snl : (s.nexts.len : Int) = s.capacity)
    (skl : (s.keys.len : Int) = s.capacity) (svl : (s.values.len : Int) = s.capacity)
    (hd : Inv tight' src b G)
    (hh : s.hashFunc = src.hashFunc) (hq : s.equalFunc = src.equalFunc)
    (hsmall : src.capacity < 2 ^ 29) :
    ∃ s', copyFrom src s = .ok () s' ∧ Inv tight' s' b G ∧
      s'.modificationCount = i32 (s.modificationCount + 1) ∧
      s'.heads.len = src.heads.len ∧ s'.nexts.len ≥ src.nexts.len ∧
      (∀ x : Int, 0 ≤ x → x < src.heads.len → s'.heads.get x = src.heads.get x) ∧
      ∀ x : Int, 0 ≤ x → x < src.nexts.len → s'.nexts.get x = src.nexts.get x := by
  obtain ⟨h, hh1, hh2⟩ := headsLike_ok (K := K) (V := V) s.heads src.heads.len s
  obtain ⟨n, hn1, hn2, hn3⟩ := roomLike_ok (K := K) (V := V) s.nexts src.nexts.len 0 (-1)
    { s with heads := h }
  have hnl := hd.nlen; have hkl := hd.klen; have hvl := hd.vlen
  have e29 := pow2_29
  unfold copyFrom
  rw [JM.bind_ok (JM.get_apply _), JM.bind_ok hh1, JM.bind_ok (JM.modify_apply _ _), JM.bind_ok hn1,
    JM.bind_ok (JM.modify_apply _ _), JM.bind_ok (arraycopy_ok ⟨by omega, by omega, by omega, by omega, by omega⟩),
    JM.bind_ok (JM.modify_apply _ _), JM.bind_ok (arraycopy_ok ⟨by omega, by omega, by omega, by omega, by omega⟩),
    JM.bind_ok (JM.modify_apply _ _), bumpMod, JM.bind_ok (JM.modify_apply _ _),
    JM.bind_ok (JM.modify_apply _ _)]
  simp only
  generalize hst1 : ({ s with
    heads := Arr.copyRange src.heads 0 h 0 src.heads.len, nexts := Arr.copyRange src.nexts 0 n 0 src.nexts.len,
    size := src.size, lfNum := src.lfNum, lfDen := src.lfDen, freeList := src.freeList
    nextUnusedEntry := src.nextUnusedEntry, maxHead := src.maxHead
    modificationCount := i32 (s.modificationCount + 1) } : Index K V) = s1
  obtain ⟨k, hk1, hk2, hk3⟩ := roomLike_ok (K := K) (V := V) s.keys src.keys.len default default s1
  rw [JM.bind_ok hk1, JM.bind_ok (JM.modify_apply _ _),
    JM.bind_ok (arraycopy_ok ⟨by omega, by omega, by omega, by omega, by omega⟩),
    JM.bind_ok (JM.modify_apply _ _), JM.bind_ok (JM.modify_apply _ _)]
  simp only
  generalize hst2 : ({ s1 with
    keys := Arr.copyRange src.keys 0 k 0 src.keys.len
    capacity := ((Arr.copyRange src.keys 0 k 0 src.keys.len).len : Int)
    capThreshold := threshold ((Arr.copyRange src.keys 0 k 0 src.keys.len).len : Int) s1.lfNum s1.lfDen } :
    Index K V) = s2
  obtain ⟨v, hv1, hv2⟩ := valuesLike_ok (K := K) (V := V) s.values src.values.len s2
  rw [JM.bind_ok hv1, JM.bind_ok (JM.modify_apply _ _),
    JM.bind_ok (arraycopy_ok ⟨by omega, by omega, by omega, by omega, by omega⟩)]
  refine ⟨_, JM.modify_apply _ _, ?_, by rw [← hst2, ← hst1], by rw [← hst2, ← hst1]; exact hh2,
    by rw [← hst2, ← hst1]; simp only [Arr.len_copyRange]; omega, ?_, ?_⟩
  rotate_left
  · intro x h0 h1
    rw [← hst2, ← hst1]
    simp only
    rw [Arr.get_copyRange, if_pos (by omega)]; congr 1; omega
  · intro x h0 h1
    rw [← hst2, ← hst1]
    simp only
    rw [Arr.get_copyRange, if_pos (by omega)]; congr 1; omega
  have hnlen : n.len = k.len := by omega
  have hklen : (k.len : Int) = max s.capacity src.capacity := by omega
  have hcap : ∃ j : Nat, (k.len : Int) = 2 ^ j ∧ j ≤ 29 := by
    rcases Int.le_total s.capacity src.capacity with hle | hle
    · rw [hklen, Int.max_eq_right hle]; exact hd.cap
    · rw [hklen, Int.max_eq_left hle]; exact scap
  have hgeC : src.capacity ≤ (k.len : Int) := by omega
  have hthr : src.capThreshold = threshold src.capacity src.lfNum src.lfDen := by
    rcases hd.thr with ht | ⟨ht, _⟩
    · exact ht
    · omega
  have hden : 0 < src.lfDen := by have := hd.lf; omega
  have hmono : src.capThreshold ≤ threshold (k.len : Int) src.lfNum src.lfDen := by
    rw [hthr]; exact threshold_mono hgeC hden
  have hgetK : ∀ x : Int, 0 ≤ x → x < src.nexts.len →
      (Arr.copyRange src.keys 0 k 0 src.keys.len).get x = src.keys.get x := by
    intro x h0 h1
    rw [Arr.get_copyRange, if_pos (by omega)]; congr 1; omega
  have hgetV : ∀ x : Int, 0 ≤ x → x < src.nexts.len →
      (Arr.copyRange src.values 0 v 0 src.values.len).get x = src.values.get x := by
    intro x h0 h1
    rw [Arr.get_copyRange, if_pos (by omega)]; congr 1; omega
  have hgetN : ∀ x : Int, 0 ≤ x → x < src.nexts.len →
      (Arr.copyRange src.nexts 0 n 0 src.nexts.len).get x = src.nexts.get x := by
    intro x h0 h1
    rw [Arr.get_copyRange, if_pos (by omega)]; congr 1; omega
  have hgetH : ∀ x : Int, 0 ≤ x → x < src.heads.len →
      (Arr.copyRange src.heads 0 h 0 src.heads.len).get x = src.heads.get x := by
    intro x h0 h1
    rw [Arr.get_copyRange, if_pos (by omega)]; congr 1; omega
  have hpath : ∀ {x : Int} {l : List Int} {t : Int}, Path src.nexts x l t →
      Path (Arr.copyRange src.nexts 0 n 0 src.nexts.len) x l t := by
    intro x l t hp
    refine hp.congr (by simp only [Arr.len_copyRange]; omega) ?_
    intro y hy
    have := hp.mem_range y hy
    exact hgetN y this.1 this.2
  subst hst2 hst1
  simp only
  have hhd : ∀ x : Int, x ∈ b.live →
      headOf s.hashFunc (Arr.copyRange src.heads 0 h 0 src.heads.len).len
        ((Arr.copyRange src.keys 0 k 0 src.keys.len).get x) = hdAt src x := by
    intro x hx
    have := hd.live_range hx
    rw [hgetK x this.1 this.2, hh, Arr.len_copyRange, hh2]; rfl
  refine { cap := ?_, nlen := ?_, klen := rfl, vlen := ?_, hlen := ?_, lf := hd.lf,
           thr := .inl rfl, size := hd.size, next := hd.next, next0 := hd.next0, perm := hd.perm,
           rowsOk := ?_, distinct := hd.distinct, coherent := hd.coherent,
           hash := by simp only; rw [hh]; exact hd.hash,
           eq := by simp only; rw [hq]; exact hd.eq, chained := ?_, maxHead := ?_,
           free := hpath hd.free, freeSub := hd.freeSub, leak := hd.leak, room := ?_, tight := ?_,
           ends := ?_ }
  · simpa using hcap
  · simp only [Arr.len_copyRange]; omega
  · simp only [Arr.len_copyRange]; omega
  · simp only [Arr.len_copyRange, hh2]; exact hd.hlen
  · intro r hr
    have := hd.rowsOk r hr
    have hrng : 0 ≤ r.entry ∧ r.entry < src.nexts.len := by
      rcases hr with hr | hr
      · exact hd.live_range (mem_live hr)
      · exact hd.held_range (List.mem_map_of_mem hr)
    simp only
    rw [hgetK _ hrng.1 hrng.2, hgetV _ hrng.1 hrng.2]
    exact this
  · intro i h0 h1
    simp only [Arr.len_copyRange] at h1
    obtain ⟨l, t, hp, ht, hm⟩ := hd.chained i h0 (by omega)
    refine ⟨l, t, ?_, ht, ?_⟩
    · rw [hgetH i h0 (by omega)]; exact hpath hp
    · intro e
      rw [hm]
      constructor
      · rintro ⟨g1, g2⟩
        exact ⟨g1, by rw [← g2]; exact hhd e g1⟩
      · rintro ⟨g1, g2⟩
        refine ⟨g1, ?_⟩
        rw [← g2]; exact (hhd e g1).symm
  · refine ⟨hd.maxHead.1, ?_⟩
    intro e he
    have := hd.maxHead.2 e he
    rw [← hhd e he] at this
    exact this
  · simp only [Arr.len_copyRange]
    rcases hd.room with hr | hr
    · left; omega
    · right; omega
  · intro ht
    obtain ⟨t1, t2, t3⟩ := hd.tight ht
    simp only [Arr.len_copyRange]
    refine ⟨?_, by omega, t3⟩
    refine Int.le_trans t1 ?_
    exact Int.mul_le_mul_of_nonneg_right (by omega) (by omega)
  · intro x h0 h1
    simp only [Arr.len_copyRange] at h1 ⊢
    rw [hh2]
    have hh1 := hd.hlen.1
    by_cases hx : x < src.nexts.len
    · obtain ⟨l, t, hp, ht⟩ := hd.ends x h0 hx
      exact Ends.path (hpath hp) ht
    · refine Ends.cons h0 (by simpa using h1) ?_
      rw [Arr.get_copyRange, if_neg (by omega), hn3 x (by omega) h1]
      exact Ends.of_neg (by omega) (by omega)

/-- `copyFrom` turns any map into a copy of the source. -/
theorem copyFrom_spec {tight' : Prop} {src : Index K V} {b : Abs K V} {G : List Int}
    (hs : Inv tight s a F) (hd : Inv tight' src b G)
    (hh : s.hashFunc = src.hashFunc) (hq : s.equalFunc = src.equalFunc)
    (hsmall : src.capacity < 2 ^ 29) :
    ∃ s', copyFrom src s = .ok () s' ∧ Inv tight' s' b G ∧
      s'.modificationCount = i32 (s.modificationCount + 1) :=
  let ⟨s', h1, h2, h3, _⟩ := copyFrom_lens hs.cap hs.nlen hs.klen hs.vlen hd hh hq hsmall
  ⟨s', h1, h2, h3⟩

theorem orderFrom_copy {tight' : Prop} {src t : Index K V} {b : Abs K V} {G : List Int}
    (hd : Inv tight' src b G) (hl : t.heads.len = src.heads.len) (hn : t.nexts.len ≥ src.nexts.len)
    (hh : ∀ x : Int, 0 ≤ x → x < src.heads.len → t.heads.get x = src.heads.get x)
    (hx : ∀ x : Int, 0 ≤ x → x < src.nexts.len → t.nexts.get x = src.nexts.get x) :
    ∀ (n : Nat) (i : Int), 0 ≤ i → i + n = src.heads.len → orderFrom t n i = orderFrom src n i
  | 0, _, _, _ => rfl
  | n + 1, i, h0, h1 => by
    simp only [orderFrom]
    rw [orderFrom_copy hd hl hn hh hx n (i + 1) (by omega) (by omega), hh i h0 (by omega)]
    obtain ⟨l, e, hp, _, _⟩ := hd.chained i h0 (by omega)
    have hlen := hp.length_le
    rw [chainFrom_path _ _ _ _ _ hp (by omega), chainFrom_path t.nexts _ _ l e _ (by omega)]
    refine hp.congr (by omega) ?_
    intro y hy
    have := hp.mem_range y hy
    exact hx y this.1 this.2

theorem order_copy {tight' : Prop} {src t : Index K V} {b : Abs K V} {G : List Int}
    (hd : Inv tight' src b G) (hl : t.heads.len = src.heads.len) (hn : t.nexts.len ≥ src.nexts.len)
    (hh : ∀ x : Int, 0 ≤ x → x < src.heads.len → t.heads.get x = src.heads.get x)
    (hx : ∀ x : Int, 0 ≤ x → x < src.nexts.len → t.nexts.get x = src.nexts.get x) :
    order t = order src := by
  unfold order
  rw [hl]
  exact orderFrom_copy hd hl hn hh hx _ _ (by omega) (by omega)

end Index
end Verif
