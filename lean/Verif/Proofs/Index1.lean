import Verif.Proofs.Chain
import Verif.Proofs.Arrays
import Verif.Spec.Index
/-! Proofs about the indexed map, part 1: the invariant and the read-only walks. -/
namespace Verif
namespace Index
open IndexSpec
variable {K V : Type} [Inhabited K] [Inhabited V]

omit [Inhabited K] [Inhabited V]

theorem headOf_range (hash : K → BitVec 32) {n : Nat} (h1 : 1 ≤ n) (h2 : n ≤ 2 ^ 29) (k : K) :
    0 ≤ headOf hash n k ∧ headOf hash n k < n := by
  unfold headOf
  have e1 : BitVec.ofInt 32 ((n : Int) - 1) = BitVec.ofNat 32 (n - 1) := by
    have : ((n : Int) - 1) = ((n - 1 : Nat) : Int) := by omega
    rw [this]; rfl
  rw [e1]
  have h3 : (((hash k &&& 0x7fffffff#32) &&& BitVec.ofNat 32 (n - 1))).toNat ≤ n - 1 := by
    rw [BitVec.toNat_and, BitVec.toNat_ofNat, Nat.mod_eq_of_lt (by omega)]
    exact Nat.and_le_right
  have h4 := BitVec.toInt_eq_toNat_cond ((hash k &&& 0x7fffffff#32) &&& BitVec.ofNat 32 (n - 1))
  rw [if_pos (by omega)] at h4
  omega

theorem headOf_congr {hash : K → BitVec 32} {n : Nat} {k k' : K}
    (h : hash k &&& 0x7fffffff#32 = hash k' &&& 0x7fffffff#32) : headOf hash n k = headOf hash n k' := by
  unfold headOf; rw [h]

/-- The head of the key stored at an entry. -/
def hdAt (s : Index K V) (e : Int) : Int := headOf s.hashFunc s.heads.len (s.keys.get e)

/-- The invariant relating a table to the ideal map `a`; `F` is the linked free list. With `tight`
no free entry is ever lost. -/
structure Inv (tight : Prop) (s : Index K V) (a : Abs K V) (F : List Int) : Prop where
  cap : ∃ k : Nat, s.capacity = 2 ^ k ∧ k ≤ 29
  nlen : (s.nexts.len : Int) = s.capacity
  klen : (s.keys.len : Int) = s.capacity
  vlen : (s.values.len : Int) = s.capacity
  hlen : 1 ≤ s.heads.len ∧ s.heads.len ≤ 2 ^ 29
  lf : 0 < s.lfNum ∧ s.lfNum ≤ s.lfDen
  thr : s.capThreshold = threshold s.capacity s.lfNum s.lfDen ∨
    (s.capacity = 2 ^ 29 ∧ s.capThreshold = 2 ^ 29)
  size : s.size = a.rows.length
  next : s.nextUnusedEntry = a.next
  next0 : 0 ≤ a.next
  perm : (a.live ++ a.held ++ a.free).Perm ((List.range a.next.toNat).map Int.ofNat)
  rowsOk : ∀ r, r ∈ a.rows ∨ r ∈ a.reserved →
    s.keys.get r.entry = r.key ∧ s.values.get r.entry = r.val
  distinct : a.rows.Pairwise fun r r' => a.eq r.key r'.key = false
  coherent : a.rows ≠ [] → Coherent a.hash a.eq
  hash : s.hashFunc = a.hash
  eq : s.equalFunc = a.eq
  chained : Chained s.heads s.nexts (hdAt s) a.live
  maxHead : 0 ≤ s.maxHead ∧ ∀ e ∈ a.live, hdAt s e ≤ s.maxHead
  free : Path s.nexts s.freeList F (-1)
  freeSub : ∀ e ∈ F, e ∈ a.free
  leak : ∀ e ∈ a.free, e ∈ F ∨ e < 29
  room : s.nextUnusedEntry ≤ s.capThreshold ∨ (2 : Int) ^ s.nextUnusedEntry.toNat ≤ s.capacity
  tight : tight → (s.lfDen : Int) ≤ 2 * s.capacity * s.lfNum ∧
    s.nextUnusedEntry ≤ s.capThreshold ∧ F = a.free
  ends : ∀ e : Int, 0 ≤ e → e < s.nexts.len → Ends s.nexts s.heads.len e

namespace Inv
variable {tight : Prop} {s : Index K V} {a : Abs K V} {F : List Int}

theorem cap_pos (h : Inv tight s a F) : 1 ≤ s.capacity ∧ s.capacity ≤ 2 ^ 29 := by
  obtain ⟨k, h1, h2⟩ := h.cap
  rw [h1]
  refine ⟨Int.pow_pos (by decide), ?_⟩
  have := Nat.pow_le_pow_right (n := 2) (by decide) h2
  exact_mod_cast this

theorem mem_range (h : Inv tight s a F) (e : Int) :
    (e ∈ a.live ∨ e ∈ a.held ∨ e ∈ a.free) ↔ (0 ≤ e ∧ e < a.next) := by
  have := h.perm.mem_iff (a := e)
  simp only [List.mem_append, List.mem_map, List.mem_range] at this
  have h0 := h.next0
  constructor
  · intro hh
    obtain ⟨n, h1, h2⟩ := this.1 (by tauto)
    subst h2
    simp only [Int.ofNat_eq_natCast]; omega
  · intro hh
    have := this.2 ⟨e.toNat, by omega, by simp; omega⟩
    tauto

theorem nodup (h : Inv tight s a F) : (a.live ++ a.held ++ a.free).Nodup := by
  rw [h.perm.nodup_iff]
  exact List.Nodup.map (fun x y hh => Int.ofNat.inj hh) List.nodup_range

theorem live_nodup (h : Inv tight s a F) : a.live.Nodup :=
  (List.nodup_append.1 (List.nodup_append.1 h.nodup).1).1

theorem held_nodup (h : Inv tight s a F) : a.held.Nodup :=
  (List.nodup_append.1 (List.nodup_append.1 h.nodup).1).2.1

theorem free_nodup (h : Inv tight s a F) : a.free.Nodup := (List.nodup_append.1 h.nodup).2.1

theorem live_held (h : Inv tight s a F) {e : Int} (h1 : e ∈ a.live) : e ∉ a.held := fun h2 =>
  (List.nodup_append.1 (List.nodup_append.1 h.nodup).1).2.2 e h1 e h2 rfl

theorem live_free (h : Inv tight s a F) {e : Int} (h1 : e ∈ a.live) : e ∉ a.free := fun h2 =>
  (List.nodup_append.1 h.nodup).2.2 e (List.mem_append_left _ h1) e h2 rfl

theorem held_free (h : Inv tight s a F) {e : Int} (h1 : e ∈ a.held) : e ∉ a.free := fun h2 =>
  (List.nodup_append.1 h.nodup).2.2 e (List.mem_append_right _ h1) e h2 rfl

theorem count (h : Inv tight s a F) :
    (a.rows.length + a.reserved.length + a.free.length : Int) = a.next := by
  have := h.perm.length_eq
  simp only [List.length_append, Abs.live, Abs.held, List.length_map, List.length_range] at this
  have := h.next0
  omega

theorem pow_ge (n : Nat) : (n : Int) + 1 ≤ 2 ^ n := by
  have := Nat.lt_two_pow_self (n := n)
  have : n + 1 ≤ 2 ^ n := this
  exact_mod_cast this

theorem thr_le (h : Inv tight s a F) : 0 ≤ s.capThreshold ∧ s.capThreshold ≤ s.capacity := by
  have h1 := h.cap_pos
  rcases h.thr with ht | ⟨h2, h3⟩
  · rw [ht]
    unfold threshold
    have hd : (0 : Int) < s.lfDen := by have := h.lf; omega
    have hn : (0 : Int) ≤ s.lfNum := by omega
    refine ⟨Int.ediv_nonneg (Int.mul_nonneg (by omega) hn) (by omega), ?_⟩
    apply Int.ediv_le_of_le_mul hd
    exact Int.mul_le_mul_of_nonneg_left (by have := h.lf.2; omega) (by omega)
  · rw [h2, h3]; decide

theorem next_le (h : Inv tight s a F) : s.nextUnusedEntry ≤ s.capacity := by
  have := h.thr_le
  rcases h.room with hr | hr
  · omega
  · have := pow_ge s.nextUnusedEntry.toNat
    have := h.next0; have := h.next
    omega

theorem live_range (h : Inv tight s a F) {e : Int} (he : e ∈ a.live) : 0 ≤ e ∧ e < s.nexts.len := by
  have h1 := (h.mem_range e).1 (.inl he)
  have h2 := h.next_le; have h3 := h.next; have h4 := h.nlen
  omega

theorem held_range (h : Inv tight s a F) {e : Int} (he : e ∈ a.held) : 0 ≤ e ∧ e < s.nexts.len := by
  have h1 := (h.mem_range e).1 (.inr (.inl he))
  have h2 := h.next_le; have h3 := h.next; have h4 := h.nlen
  omega

theorem hd_range (h : Inv tight s a F) (k : K) :
    0 ≤ headOf s.hashFunc s.heads.len k ∧ headOf s.hashFunc s.heads.len k < s.heads.len :=
  headOf_range _ h.hlen.1 h.hlen.2 k

end Inv

theorem mem_live {a : Abs K V} {r : Row K V} (h : r ∈ a.rows) : r.entry ∈ a.live :=
  List.mem_map_of_mem h

/-- The key loop over a chain. -/
theorem lookupLoop_spec (key : K) (s : Index K V) (hk : s.keys.len = s.nexts.len) :
    ∀ (fuel : Nat) (e : Int) (l : List Int) (t : Int), Path s.nexts e l t → l.length < fuel →
      lookupLoop key fuel e s =
        .ok ((l.find? fun x => s.equalFunc key (s.keys.get x)).getD (-1)) s
  | 0, _, _, _, _, h => by omega
  | fuel + 1, e, [], t, hp, _ => by
    have h1 := hp.1; have h2 := hp.2
    rw [lookupLoop, if_neg (by omega)]; rfl
  | fuel + 1, e, x :: l, t, hp, hf => by
    obtain ⟨rfl, h0, h1, h2⟩ := hp
    rw [lookupLoop, if_pos h0, JM.bind_ok (rd_ok _ ⟨h0, by omega⟩), JM.bind_ok (JM.get_apply _)]
    by_cases hq : s.equalFunc key (s.keys.get e)
    · rw [if_pos hq, List.find?_cons, hq]; rfl
    · rw [if_neg hq, JM.bind_ok (rd_ok _ ⟨h0, h1⟩),
        lookupLoop_spec key s hk fuel _ l t h2 (by simpa using hf), List.find?_cons]
      simp only [Bool.not_eq_true] at hq
      rw [hq]

theorem getHeadLoop_spec (s : Index K V) :
    ∀ (fuel : Nat) (e : Int) (l : List Int) (t : Int), Path s.nexts e l t → l.length < fuel →
      getHeadLoop fuel e s = .ok (-t - 1) s
  | 0, _, _, _, _, h => by omega
  | fuel + 1, e, [], t, hp, _ => by
    have h1 := hp.1; have h2 := hp.2
    rw [getHeadLoop, if_neg (by omega), h1]; rfl
  | fuel + 1, e, x :: l, t, hp, hf => by
    obtain ⟨rfl, h0, h1, h2⟩ := hp
    rw [getHeadLoop, if_pos h0, JM.bind_ok (rd_ok _ ⟨h0, h1⟩),
      getHeadLoop_spec s fuel _ l t h2 (by simpa using hf)]

theorem findEntryLoop_none (entry : Int) (s : Index K V) :
    ∀ (fuel : Nat) (p e : Int) (l : List Int) (t : Int), Path s.nexts e l t → l.length < fuel →
      entry ∉ l → findEntryLoop entry fuel p e s = .ok none s
  | 0, _, _, _, _, _, h, _ => by omega
  | fuel + 1, p, e, [], t, hp, _, _ => by
    have h1 := hp.1; have h2 := hp.2
    rw [findEntryLoop, if_neg (by omega)]; rfl
  | fuel + 1, p, e, x :: l, t, hp, hf, hn => by
    obtain ⟨rfl, h0, h1, h2⟩ := hp
    simp only [List.mem_cons, not_or] at hn
    rw [findEntryLoop, if_pos h0, if_neg (Ne.symm hn.1), JM.bind_ok (rd_ok _ ⟨h0, h1⟩),
      findEntryLoop_none entry s fuel _ _ l t h2 (by simpa using hf) hn.2]

theorem findEntryLoop_some (entry : Int) (s : Index K V) :
    ∀ (fuel : Nat) (p e : Int) (l1 l2 : List Int) (t : Int), Path s.nexts e (l1 ++ entry :: l2) t →
      l1.length < fuel → entry ∉ l1 →
      findEntryLoop entry fuel p e s = .ok (some (l1.getLastD p)) s
  | 0, _, _, _, _, _, _, h, _ => by omega
  | fuel + 1, p, e, [], l2, t, hp, _, _ => by
    have h1 := hp.1; have h2 := hp.2.1
    rw [findEntryLoop, if_pos (by omega), if_pos h1]; rfl
  | fuel + 1, p, e, x :: l1, l2, t, hp, hf, hn => by
    obtain ⟨rfl, h0, h1, h2⟩ := hp
    simp only [List.mem_cons, not_or] at hn
    rw [findEntryLoop, if_pos h0, if_neg (Ne.symm hn.1), JM.bind_ok (rd_ok _ ⟨h0, h1⟩),
      findEntryLoop_some entry s fuel _ _ l1 l2 t h2 (by simpa using hf) hn.2, List.getLastD_cons]

theorem findKeyLoop_none (key : K) (s : Index K V) (hk : s.keys.len = s.nexts.len) :
    ∀ (fuel : Nat) (p e : Int) (l : List Int) (t : Int), Path s.nexts e l t → l.length < fuel →
      (∀ x ∈ l, s.equalFunc key (s.keys.get x) = false) →
      findKeyLoop key fuel p e s = .ok none s
  | 0, _, _, _, _, _, h, _ => by omega
  | fuel + 1, p, e, [], t, hp, _, _ => by
    have h1 := hp.1; have h2 := hp.2
    rw [findKeyLoop, if_neg (by omega)]; rfl
  | fuel + 1, p, e, x :: l, t, hp, hf, hn => by
    obtain ⟨rfl, h0, h1, h2⟩ := hp
    have := hn e (by simp)
    rw [findKeyLoop, if_pos h0, JM.bind_ok (rd_ok _ ⟨h0, by omega⟩), JM.bind_ok (JM.get_apply _),
      if_neg (by simp [this]), JM.bind_ok (rd_ok _ ⟨h0, h1⟩),
      findKeyLoop_none key s hk fuel _ _ l t h2 (by simpa using hf) (fun x hx => hn x (by simp [hx]))]

theorem findKeyLoop_some (key : K) (entry : Int) (s : Index K V) (hk : s.keys.len = s.nexts.len)
    (hq : s.equalFunc key (s.keys.get entry) = true) :
    ∀ (fuel : Nat) (p e : Int) (l1 l2 : List Int) (t : Int), Path s.nexts e (l1 ++ entry :: l2) t →
      l1.length < fuel → (∀ x ∈ l1, s.equalFunc key (s.keys.get x) = false) →
      findKeyLoop key fuel p e s = .ok (some (l1.getLastD p, entry)) s
  | 0, _, _, _, _, _, _, h, _ => by omega
  | fuel + 1, p, e, [], l2, t, hp, _, _ => by
    obtain ⟨rfl, h0, h1, h2⟩ := hp
    rw [findKeyLoop, if_pos (by omega), JM.bind_ok (rd_ok _ ⟨h0, by omega⟩),
      JM.bind_ok (JM.get_apply _), if_pos hq]; rfl
  | fuel + 1, p, e, x :: l1, l2, t, hp, hf, hn => by
    obtain ⟨rfl, h0, h1, h2⟩ := hp
    have := hn e (by simp)
    rw [findKeyLoop, if_pos h0, JM.bind_ok (rd_ok _ ⟨h0, by omega⟩), JM.bind_ok (JM.get_apply _),
      if_neg (by simp [this]), JM.bind_ok (rd_ok _ ⟨h0, h1⟩),
      findKeyLoop_some key entry s hk hq fuel _ _ l1 l2 t h2 (by simpa using hf)
        (fun x hx => hn x (by simp [hx])), List.getLastD_cons]

/-! ### Key lookup -/

/-- What the ideal lookup finds is what sits in the chain of the key. -/
theorem find_chain {tight : Prop} {s : Index K V} {a : Abs K V} {F : List Int} (h : Inv tight s a F)
    (k : K) : ∃ l t, Path s.nexts (s.heads.get (headOf s.hashFunc s.heads.len k)) l t ∧
      (l ≠ [] → t = -(headOf s.hashFunc s.heads.len k) - 1) ∧
      (∀ e ∈ l, e ∈ a.live) ∧
      ((a.find k = none ∧ ∀ x ∈ l, s.equalFunc k (s.keys.get x) = false) ∨
       (∃ r ∈ a.rows, a.find k = some r ∧ a.eq k r.key = true ∧ r.entry ∈ l ∧
          ∀ x ∈ l, x ≠ r.entry → s.equalFunc k (s.keys.get x) = false)) := by
  obtain ⟨g0, g1⟩ := h.hd_range k
  obtain ⟨l, t, hp, ht, hm⟩ := h.chained _ g0 g1
  refine ⟨l, t, hp, ht, fun e he => ((hm e).1 he).1, ?_⟩
  cases hf : a.find k with
  | none =>
    left
    refine ⟨rfl, ?_⟩
    intro x hx
    obtain ⟨r, hr, rfl⟩ := List.mem_map.1 ((hm x).1 hx).1
    rw [(h.rowsOk r (.inl hr)).1, h.eq]
    have := List.find?_eq_none.1 hf r hr
    simpa using this
  | some r =>
    right
    have hr : r ∈ a.rows := List.mem_of_find?_eq_some hf
    have hq : a.eq k r.key = true := by simpa using List.find?_some hf
    have hc := h.coherent (List.ne_nil_of_mem hr)
    refine ⟨r, hr, rfl, hq, ?_, ?_⟩
    · rw [hm]
      refine ⟨mem_live hr, ?_⟩
      unfold hdAt
      rw [(h.rowsOk r (.inl hr)).1, h.hash]
      exact (headOf_congr (hc.hash _ _ hq)).symm
    · intro x hx hne
      obtain ⟨r', hr', rfl⟩ := List.mem_map.1 ((hm x).1 hx).1
      rw [(h.rowsOk r' (.inl hr')).1, h.eq]
      by_contra hcon
      have hq' : a.eq k r'.key = true := by simpa using hcon
      have hrr : a.eq r.key r'.key = true := hc.trans _ _ _ (hc.symm _ _ hq) hq'
      have hrr' : a.eq r'.key r.key = true := hc.symm _ _ hrr
      have hner : r ≠ r' := fun hh => hne (by rw [hh])
      rcases List.pairwise_iff_getElem.1 h.distinct with hd
      obtain ⟨i, hi, rfl⟩ := List.getElem_of_mem hr
      obtain ⟨j, hj, rfl⟩ := List.getElem_of_mem hr'
      rcases Nat.lt_trichotomy i j with hlt | heq | hlt
      · rw [hd i j hi hj hlt] at hrr; simp at hrr
      · subst heq; exact hner rfl
      · rw [hd j i hj hi hlt] at hrr'; simp at hrr'

theorem klen_eq {tight : Prop} {s : Index K V} {a : Abs K V} {F : List Int} (h : Inv tight s a F) :
    s.keys.len = s.nexts.len := by
  have h1 := h.klen; have h2 := h.nlen; omega

theorem vlen_eq {tight : Prop} {s : Index K V} {a : Abs K V} {F : List Int} (h : Inv tight s a F) :
    s.values.len = s.nexts.len := by
  have h1 := h.vlen; have h2 := h.nlen; omega

/-- The entry of a key, -1 if absent. -/
def entryOf (a : Abs K V) (k : K) : Int :=
  match a.find k with
  | some r => r.entry
  | none => -1

theorem find?_unique {α : Type} {p : α → Bool} {x : α} : ∀ {l : List α}, x ∈ l → p x = true →
    (∀ y ∈ l, y ≠ x → p y = false) → l.find? p = some x
  | y :: l, hx, hp, hu => by
    by_cases hy : y = x
    · subst hy; exact List.find?_cons_of_pos hp
    · rw [List.find?_cons_of_neg (by rw [hu y (by simp) hy]; simp)]
      refine find?_unique ?_ hp (fun z hz => hu z (by simp [hz]))
      rcases List.mem_cons.1 hx with rfl | hx
      · exact absurd rfl hy
      · exact hx

theorem chain_find {tight : Prop} {s : Index K V} {a : Abs K V} {F : List Int} (h : Inv tight s a F)
    (k : K) : ∃ l t, Path s.nexts (s.heads.get (headOf s.hashFunc s.heads.len k)) l t ∧
      (l.find? fun x => s.equalFunc k (s.keys.get x)).getD (-1) = entryOf a k := by
  obtain ⟨l, t, hp, _, _, hh⟩ := find_chain h k
  refine ⟨l, t, hp, ?_⟩
  unfold entryOf
  rcases hh with ⟨h1, h2⟩ | ⟨r, hr, h1, h2, h3, h4⟩
  · rw [h1]
    have : (l.find? fun x => s.equalFunc k (s.keys.get x)) = none := by
      rw [List.find?_eq_none]; intro x hx; rw [h2 x hx]; simp
    rw [this]; rfl
  · rw [h1, find?_unique h3 ?_ h4]
    · rfl
    · rw [(h.rowsOk r (.inl hr)).1, h.eq]; exact h2

theorem lookupEntry_spec {tight : Prop} {s : Index K V} {a : Abs K V} {F : List Int}
    (h : Inv tight s a F) (k : K) : lookupEntry k s = .ok (entryOf a k) s := by
  obtain ⟨l, t, hp, hf⟩ := chain_find h k
  obtain ⟨g0, g1⟩ := h.hd_range k
  have hc : computeHead k s = .ok (headOf s.hashFunc s.heads.len k) s := rfl
  unfold lookupEntry
  rw [JM.bind_ok hc, JM.bind_ok (rd_ok _ ⟨g0, g1⟩), JM.bind_ok (JM.get_apply _),
    lookupLoop_spec k s (klen_eq h) _ _ l t hp (by have := hp.length_le; omega), hf]

theorem entryOf_nonneg {tight : Prop} {s : Index K V} {a : Abs K V} {F : List Int}
    (h : Inv tight s a F) {k : K} {r : Row K V} (hf : a.find k = some r) :
    r ∈ a.rows ∧ entryOf a k = r.entry ∧ 0 ≤ r.entry ∧ r.entry < s.nexts.len := by
  have hr : r ∈ a.rows := List.mem_of_find?_eq_some hf
  refine ⟨hr, ?_, h.live_range (mem_live hr)⟩
  unfold entryOf; rw [hf]

end Index
end Verif
