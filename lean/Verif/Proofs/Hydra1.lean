import Verif.Proofs.Linked
import Verif.Props.Arrays
import Verif.Trace
set_option linter.unusedSectionVars false
/-! Proof that the hydra deque refines the family of lists with storage. -/
namespace Verif.Hydra
open Verif.HydraSpec Verif.Linked
variable {α : Type}

/-- The entries of list `i`. -/
abbrev E (a : Stored α) (i : Int) : List Int := (a.lists i).map Prod.fst

structure Inv (d : α) (s : Hydra α) (a : Stored α) : Prop where
  hl : s.tails.len = s.heads.len
  hc : s.count.len = s.heads.len
  vn : s.nexts.len = s.values.len
  vp : s.prevs.len = s.values.len
  out : ∀ i : Int, i < 0 ∨ (s.heads.len : Int) ≤ i → a.lists i = []
  head : ∀ i : Int, 0 ≤ i → i < s.heads.len → s.heads.get i = hd (E a i)
  tail : ∀ i : Int, 0 ≤ i → i < s.heads.len → s.tails.get i = hd (E a i).reverse
  cnt : ∀ i : Int, 0 ≤ i → i < s.heads.len → s.count.get i = (a.lists i).length
  fwd : ∀ i, Links s.nexts.get (E a i)
  bwd : ∀ i, Links s.prevs.get (E a i).reverse
  vals : ∀ i e v, (e, v) ∈ a.lists i → s.values.get e = v
  idle : ∀ e : Int, 0 ≤ e → e < s.values.len → (∀ i, e ∉ E a i) →
    s.prevs.get e = -1 ∧ s.values.get e = d
  rng : ∀ i, ∀ e ∈ E a i, 0 ≤ e ∧ e < a.next
  frng : ∀ e ∈ a.freed, 0 ≤ e ∧ e < a.next
  nd : ∀ i, (E a i).Nodup
  dj : ∀ i j e, e ∈ E a i → e ∈ E a j → i = j
  fnd : a.freed.Nodup
  fdj : ∀ i, ∀ e ∈ E a i, e ∉ a.freed
  fch : Free s.nexts.get a.freed
  fl : s.freeList = code a.freed
  nx : s.maxEntry + 1 = a.next
  nx0 : 0 ≤ a.next ∧ a.next ≤ s.values.len
  tot : s.size = a.total
  sum : a.total = sumLen a.lists s.heads.len

theorem inv_new {d : α} {q c : Int} {s : Hydra α} (h : Hydra.new q c d = .ok s) :
    Inv d s Stored.empty := by
  unfold Hydra.new at h
  split at h
  · simp at h
  · simp only at h
    split at h
    · simp at h
    · rename_i h1 h2
      simp at h; subst h
      have hs : ∀ n, sumLen (fun _ => [] : Int → List (Int × α)) n = 0 := by
        intro n; induction n with
        | zero => rfl
        | succ n ih => simp [sumLen, ih]
      constructor <;> simp [Stored.empty, E, Links, Free, hs] <;> omega

theorem ensureEntry_same {σ β γ : Type} {a : Arr β} {b : Arr γ} {i : Int} {d : β} {d' : γ} {s s' : σ}
    {r : Arr β} {r' : Arr γ} (hl : a.len = b.len) (h : ensureEntry a i d s = .ok r s)
    (h' : ensureEntry b i d' s' = .ok r' s') : r.len = r'.len := by
  unfold ensureEntry ensureSize at h h'
  rw [hl] at h
  split at h
  · rename_i hc
    rw [if_pos hc] at h'
    have hg : ∀ {τ : Type} (t : τ), grow (i32 (i + 1)) b.len t =
        match growLoop (i32 (i + 1)) 64 (if (b.len : Int) = 0 then 1 else (b.len : Int)) with
        | some r => .ok r t
        | none => .err .diverge t := fun _ => rfl
    rw [JM.bind_apply, hg] at h h'
    generalize growLoop (i32 (i + 1)) 64 (if (b.len : Int) = 0 then 1 else (b.len : Int)) = g at h h'
    cases g with
    | none => simp at h
    | some n =>
      simp only [copyOf] at h h'
      split at h
      · rename_i hn
        rw [if_pos hn] at h'
        simp at h h'
        rw [← h, ← h']; rfl
      · simp at h
  · rename_i hc
    rw [if_neg hc] at h'
    simp at h h'
    rw [← h, ← h', hl]

theorem ensureEntry_ok {σ β : Type} (a : Arr β) {i : Int} (d : β) (s : σ) (h : -1 ≤ i ∧ i < 1073741824) :
    ∃ r, ensureEntry a i d s = .ok r s ∧ i < r.len ∧ a.len ≤ r.len ∧
      (∀ j : Int, 0 ≤ j → j < a.len → r.get j = a.get j) ∧
      (∀ j : Int, a.len ≤ j → j < r.len → r.get j = d) := by
  obtain ⟨r, hr, h1, h2, h3, h4⟩ := Verif.ensureSize_ok a (i + 1) d s (by omega)
  refine ⟨r, ?_, by omega, ?_, h2, h3⟩
  · unfold ensureEntry; rw [i32_of_range (by omega)]; exact hr
  · by_cases hc : i + 1 ≤ a.len
    · rw [h4 hc]; omega
    · omega

theorem ensureList_spec {d : α} {s : Hydra α} {a : Stored α} (h : Inv d s a) {i : Int}
    (hi : 0 ≤ i ∧ i < 1073741824) :
    ∃ s', ensureList i s = .ok () s' ∧ Inv d s' a ∧ i < s'.heads.len := by
  obtain ⟨r1, e1, g1, l1, k1, n1⟩ := ensureEntry_ok s.heads (-1) s (i := i) (by omega)
  obtain ⟨r2, e2, g2, l2, k2, n2⟩ :=
    ensureEntry_ok s.tails (-1) { s with heads := r1 } (i := i) (by omega)
  obtain ⟨r3, e3, g3, l3, k3, n3⟩ :=
    ensureEntry_ok s.count 0 { s with heads := r1, tails := r2 } (i := i) (by omega)
  have hl2 := ensureEntry_same h.hl e2 e1
  have hl3 := ensureEntry_same h.hc e3 e1
  have p1 := h.hl
  have p2 := h.hc
  unfold ensureList
  rw [JM.bind_ok (JM.get_apply _), JM.bind_ok e1, JM.bind_ok (JM.modify_apply _ _), JM.bind_ok e2,
    JM.bind_ok (JM.modify_apply _ _), JM.bind_ok e3]
  refine ⟨_, rfl, ?_, g1⟩
  exact {
    hl := hl2
    hc := hl3
    vn := h.vn
    vp := h.vp
    out := fun j hj => h.out j (by simp only at hj; omega)
    head := fun j h0 h1 => by
      simp only at h1 ⊢
      by_cases hj : j < s.heads.len
      · rw [k1 j h0 hj]; exact h.head j h0 hj
      · rw [n1 j (by omega) h1, E, h.out j (by omega)]; rfl
    tail := fun j h0 h1 => by
      simp only at h1 ⊢
      by_cases hj : j < s.heads.len
      · rw [k2 j h0 (by omega)]; exact h.tail j h0 hj
      · rw [n2 j (by omega) (by omega), E, h.out j (by omega)]; rfl
    cnt := fun j h0 h1 => by
      simp only at h1 ⊢
      by_cases hj : j < s.heads.len
      · rw [k3 j h0 (by omega)]; exact h.cnt j h0 hj
      · rw [n3 j (by omega) (by omega), h.out j (by omega)]; rfl
    fwd := h.fwd
    bwd := h.bwd
    vals := h.vals
    idle := h.idle
    rng := h.rng
    frng := h.frng
    nd := h.nd
    dj := h.dj
    fnd := h.fnd
    fdj := h.fdj
    fch := h.fch
    fl := h.fl
    nx := h.nx
    nx0 := h.nx0
    tot := h.tot
    sum := by
      simp only
      rw [h.sum, sumLen_mono a.lists s.heads.len r1.len l1 (fun j hj => h.out j (.inr hj))] }

/-- After allocation: the invariant for `a.take`, and the entry is nobody's. -/
theorem allocateEntry_spec {d : α} {s : Hydra α} {a : Stored α} (h : Inv d s a)
    (hroom : a.freed = [] → a.next < 1073741824) :
    ∃ s', allocateEntry d s = .ok a.entry s' ∧ Inv d s' a.take ∧ s'.heads = s.heads ∧
      s'.tails = s.tails ∧ (0 ≤ a.entry ∧ a.entry < a.take.next) ∧ (∀ i, a.entry ∉ E a i) ∧
      a.entry ∉ a.take.freed := by
  unfold allocateEntry
  rw [JM.bind_ok (JM.get_apply _)]
  have hvn := h.vn
  have hvp := h.vp
  have hnx := h.nx
  have hnx0 := h.nx0
  cases hf : a.freed with
  | cons e fs =>
    have hfl := h.fl
    have he := h.frng e (by rw [hf]; simp)
    rw [hf, code_cons] at hfl
    have hent : a.entry = e := by simp [Stored.entry, hf]
    have htake : a.take = { a with freed := fs } := by simp [Stored.take, hf]
    rw [if_pos (by omega), JM.bind_ok (rd_ok _ (by omega)), JM.bind_ok (JM.modify_apply _ _)]
    have hid : -(s.freeList + 2) = e := by omega
    rw [hid, hent, htake]
    have hch := h.fch
    rw [hf] at hch
    have hnd := h.fnd
    rw [hf] at hnd
    refine ⟨_, rfl, ?_, rfl, rfl, ⟨he.1, he.2⟩, ?_, (List.nodup_cons.mp hnd).1⟩
    · exact { h with
        frng := fun x hx => h.frng x (by rw [hf]; simp only at hx; simp [hx])
        fnd := (List.nodup_cons.mp hnd).2
        fdj := fun i x hx hc => h.fdj i x hx (by rw [hf]; simp only at hc; simp [hc])
        fch := hch.2
        fl := hch.1 }
    · intro i hc
      exact h.fdj i e hc (by rw [hf]; simp)
  | nil =>
    have hfl := h.fl
    rw [hf, code_nil] at hfl
    have hr := hroom hf
    have hent : a.entry = s.maxEntry + 1 := by simp [Stored.entry, hf]; omega
    have htake : a.take = { a with next := a.next + 1 } := by simp [Stored.take, hf]
    rw [if_neg (by omega), JM.bind_ok (JM.modify_apply _ _)]
    obtain ⟨r1, e1, g1, l1, k1, n1⟩ := ensureEntry_ok s.values d
      { s with maxEntry := s.maxEntry + 1 } (i := s.maxEntry + 1) (by omega)
    obtain ⟨r2, e2, g2, l2, k2, n2⟩ := ensureEntry_ok s.nexts (-1)
      { s with maxEntry := s.maxEntry + 1, values := r1 } (i := s.maxEntry + 1) (by omega)
    obtain ⟨r3, e3, g3, l3, k3, n3⟩ := ensureEntry_ok s.prevs (-1)
      { s with maxEntry := s.maxEntry + 1, values := r1, nexts := r2 } (i := s.maxEntry + 1) (by omega)
    have hl2 := ensureEntry_same h.vn e2 e1
    have hl3 := ensureEntry_same h.vp e3 e1
    rw [JM.bind_ok e1, JM.bind_ok (JM.modify_apply _ _), JM.bind_ok e2,
      JM.bind_ok (JM.modify_apply _ _), JM.bind_ok e3, JM.bind_ok (JM.modify_apply _ _)]
    rw [hent, htake]
    refine ⟨_, rfl, ?_, rfl, rfl, ⟨by omega, by simp only; omega⟩, ?_, by simp [hf]⟩
    · exact { h with
        vn := hl2
        vp := hl3
        fwd := fun i => (h.fwd i).congr fun e he => by
          have := h.rng i e he
          exact (k2 e (by omega) (by omega)).symm
        bwd := fun i => (h.bwd i).congr fun e he => by
          have := h.rng i e (List.mem_reverse.mp he)
          exact (k3 e (by omega) (by omega)).symm
        vals := fun i e v hm => by
          have := h.rng i e (List.mem_map_of_mem (f := Prod.fst) hm)
          simp only
          rw [k1 e (by omega) (by omega)]; exact h.vals i e v hm
        idle := fun e h0 h1 hn => by
          simp only at h1 ⊢
          by_cases hj : e < s.values.len
          · rw [k1 e h0 hj, k3 e h0 (by omega)]; exact h.idle e h0 hj hn
          · exact ⟨n3 e (by omega) (by omega), n1 e (by omega) (by omega)⟩
        rng := fun i e he => by have := h.rng i e he; simp only; omega
        frng := fun e he => by have := h.frng e he; simp only; omega
        fch := h.fch.congr fun e he => by
          have := h.frng e he
          exact (k2 e (by omega) (by omega)).symm
        nx := by simp only; omega
        nx0 := by simp only; omega }
    · intro i hc
      have := h.rng i _ hc
      omega

end Verif.Hydra
