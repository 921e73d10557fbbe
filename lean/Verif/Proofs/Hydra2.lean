import Verif.Proofs.Hydra1
set_option linter.unusedSectionVars false
/-! Additions to the hydra deque. -/
namespace Verif.Hydra
open Verif.HydraSpec Verif.Linked
variable {α : Type}

theorem hd_neg {d : α} {s : Hydra α} {a : Stored α} (h : Inv d s a) (i : Int) :
    hd (E a i) = -1 ↔ a.lists i = [] := by
  cases hl : a.lists i with
  | nil => simp [E, hl]
  | cons p l =>
    have := h.rng i p.1 (by simp [E, hl])
    simp [E, hl]; omega

theorem hd_rev_neg {d : α} {s : Hydra α} {a : Stored α} (h : Inv d s a) (i : Int) :
    hd (E a i).reverse = -1 ↔ a.lists i = [] := by
  by_cases hl : a.lists i = []
  · simp [E, hl]
  · have hm : hd (E a i).reverse ∈ (E a i).reverse := hd_mem (by simp [E, hl])
    have := h.rng i _ (List.mem_reverse.mp hm)
    simp only [hl, iff_false]; omega

theorem upd_self {β : Type} (f : Int → β) (i : Int) (x : β) : upd f i x i = x := by simp [upd]
theorem upd_ne {β : Type} (f : Int → β) {i j : Int} (x : β) (h : j ≠ i) : upd f i x j = f j := by
  simp [upd, h]

/-- Fields of the invariant after an insertion of the fresh entry `e` in list `i`, whatever end. -/
theorem insert_inv {d : α} {s s' : Hydra α} {b : Stored α} (h : Inv d s b) {i e : Int} {v : α}
    {l' : List (Int × α)} (hi : 0 ≤ i ∧ i < s.heads.len)
    (he : 0 ≤ e ∧ e < b.next) (hfresh : ∀ j, e ∉ E b j) (hfree : e ∉ b.freed)
    (hperm : l'.Perm ((e, v) :: b.lists i))
    (hheads : s'.heads = s.heads.set i (hd (l'.map Prod.fst)))
    (htails : s'.tails = s.tails.set i (hd (l'.map Prod.fst).reverse))
    (hcount : s'.count = s.count.set i (s.count.get i + 1))
    (hvalues : s'.values = s.values.set e v)
    (hnl : s'.nexts.len = s.nexts.len) (hpl : s'.prevs.len = s.prevs.len)
    (hn : ∀ x, x ≠ e → x ∉ E b i → s'.nexts.get x = s.nexts.get x)
    (hp : ∀ x, x ≠ e → x ∉ E b i → s'.prevs.get x = s.prevs.get x)
    (hfwd : Links s'.nexts.get (l'.map Prod.fst)) (hbwd : Links s'.prevs.get (l'.map Prod.fst).reverse)
    (hfl : s'.freeList = s.freeList) (hme : s'.maxEntry = s.maxEntry) (hsz : s'.size = s.size + 1) :
    Inv d s' { b with lists := upd b.lists i l', total := b.total + 1 } := by
  have hmem : ∀ j x, x ∈ (upd b.lists i l' j).map Prod.fst ↔ (j = i ∧ x = e) ∨ x ∈ E b j := by
    intro j x
    by_cases hj : j = i
    · subst hj
      rw [upd_self, (hperm.map Prod.fst).mem_iff]; simp [E]
    · rw [upd_ne _ _ hj]; simp [hj, E]
  have hother : ∀ j, j ≠ i → ∀ x ∈ E b j, x ≠ e ∧ x ∉ E b i := by
    intro j hj x hx
    exact ⟨fun hc => hfresh j (hc ▸ hx), fun hc => hj (h.dj j i x hx hc)⟩
  have hlen : l'.length = (b.lists i).length + 1 := by rw [hperm.length_eq]; simp
  have hsum := sumLen_upd b.lists i l' s.heads.len hi
  have h1 := h.hl
  have h2 := h.hc
  have h3 := h.vn
  have h4 := h.vp
  have h5 := h.sum
  exact {
    hl := by rw [hheads, htails]; simpa using h.hl
    hc := by rw [hheads, hcount]; simpa using h.hc
    vn := by rw [hnl, hvalues]; simpa using h.vn
    vp := by rw [hpl, hvalues]; simpa using h.vp
    out := fun j hj => by
      rw [hheads] at hj; simp only [Arr.len_set] at hj
      simp only; rw [upd_ne _ _ (by omega)]; exact h.out j hj
    head := fun j h0 hj => by
      rw [hheads] at hj ⊢; simp only [Arr.len_set] at hj
      rw [Arr.get_set]
      by_cases hji : j = i
      · rw [if_pos hji, E, hji]; simp only; rw [upd_self]
      · rw [if_neg hji, E]; simp only; rw [upd_ne _ _ hji]; exact h.head j h0 hj
    tail := fun j h0 hj => by
      rw [hheads] at hj; simp only [Arr.len_set] at hj
      rw [htails, Arr.get_set]
      by_cases hji : j = i
      · rw [if_pos hji, E, hji]; simp only; rw [upd_self]
      · rw [if_neg hji, E]; simp only; rw [upd_ne _ _ hji]; exact h.tail j h0 hj
    cnt := fun j h0 hj => by
      rw [hheads] at hj; simp only [Arr.len_set] at hj
      rw [hcount, Arr.get_set]
      by_cases hji : j = i
      · rw [if_pos hji, hji]; simp only; rw [upd_self, hlen, h.cnt i hi.1 hi.2]; simp
      · rw [if_neg hji]; simp only; rw [upd_ne _ _ hji]; exact h.cnt j h0 hj
    fwd := fun j => by
      by_cases hji : j = i
      · rw [hji, E]; simp only; rw [upd_self]; exact hfwd
      · rw [E]; simp only; rw [upd_ne _ _ hji]
        exact (h.fwd j).congr fun x hx => (hn x (hother j hji x hx).1 (hother j hji x hx).2).symm
    bwd := fun j => by
      by_cases hji : j = i
      · rw [hji, E]; simp only; rw [upd_self]; exact hbwd
      · rw [E]; simp only; rw [upd_ne _ _ hji]
        exact (h.bwd j).congr fun x hx =>
          have hx := List.mem_reverse.mp hx
          (hp x (hother j hji x hx).1 (hother j hji x hx).2).symm
    vals := fun j x w hm => by
      rw [hvalues, Arr.get_set]
      simp only at hm
      by_cases hx : x = e
      · rw [if_pos hx]
        subst hx
        by_cases hji : j = i
        · rw [hji, upd_self, hperm.mem_iff] at hm
          simp only [List.mem_cons, Prod.mk.injEq, true_and] at hm
          rcases hm with rfl | hm
          · rfl
          · exact absurd (List.mem_map_of_mem (f := Prod.fst) hm) (hfresh i)
        · rw [upd_ne _ _ hji] at hm
          exact absurd (List.mem_map_of_mem (f := Prod.fst) hm) (hfresh j)
      · rw [if_neg hx]
        by_cases hji : j = i
        · rw [hji, upd_self, hperm.mem_iff] at hm
          simp only [List.mem_cons, Prod.mk.injEq, hx, false_and, false_or] at hm
          exact h.vals i x w hm
        · rw [upd_ne _ _ hji] at hm; exact h.vals j x w hm
    idle := fun x h0 hx hnot => by
      rw [hvalues] at hx ⊢; simp only [Arr.len_set] at hx
      have hxe : x ≠ e := fun hc => hnot i ((hmem i x).mpr (.inl ⟨rfl, hc⟩))
      have hxn : ∀ j, x ∉ E b j := fun j hc => hnot j ((hmem j x).mpr (.inr hc))
      rw [Arr.get_set_ne _ _ hxe, hp x hxe (hxn i)]
      exact h.idle x h0 hx hxn
    rng := fun j x hx => by
      rcases (hmem j x).mp hx with ⟨_, rfl⟩ | hx
      · exact he
      · exact h.rng j x hx
    frng := h.frng
    nd := fun j => by
      by_cases hji : j = i
      · rw [hji, E]; simp only; rw [upd_self, (hperm.map Prod.fst).nodup_iff]
        exact List.nodup_cons.mpr ⟨hfresh i, h.nd i⟩
      · rw [E]; simp only; rw [upd_ne _ _ hji]; exact h.nd j
    dj := fun j k x hx hy => by
      rcases (hmem j x).mp hx with ⟨hj, hxe⟩ | hx' <;> rcases (hmem k x).mp hy with ⟨hk, hye⟩ | hy'
      · rw [hj, hk]
      · exact absurd (hxe ▸ hy') (hfresh k)
      · exact absurd (hye ▸ hx') (hfresh j)
      · exact h.dj j k x hx' hy'
    fnd := h.fnd
    fdj := fun j x hx => by
      rcases (hmem j x).mp hx with ⟨_, rfl⟩ | hx
      · exact hfree
      · exact h.fdj j x hx
    fch := h.fch.congr fun x hx => (hn x (fun hc => hfree (hc ▸ hx)) (fun hc => h.fdj i x hc hx)).symm
    fl := by rw [hfl]; exact h.fl
    nx := by rw [hme]; exact h.nx
    nx0 := by rw [hvalues]; simpa using h.nx0
    tot := by rw [hsz]; simp only; rw [h.tot]
    sum := by
      rw [hheads]; simp only [Arr.len_set]
      omega }

theorem take_lists (a : Stored α) : a.take.lists = a.lists := by
  unfold Stored.take; split <;> rfl
theorem take_total (a : Stored α) : a.take.total = a.total := by
  unfold Stored.take; split <;> rfl

theorem addCount_ok {s : Hydra α} {i k : Int} (h : 0 ≤ i ∧ i < s.count.len) :
    addCount i k s = .ok () { s with count := s.count.set i (s.count.get i + k) } := by
  unfold addCount
  rw [JM.bind_ok (rd_ok _ h), wr_ok _ _ h]

theorem set_get {β : Type} (a : Arr β) (i : Int) : a.set i (a.get i) = a := by
  unfold Arr.set
  cases a; simp only [Arr.mk.injEq, true_and]
  funext j; split
  · rename_i hj; rw [hj]
  · rfl

theorem addFirst_spec {d : α} {s : Hydra α} {a : Stored α} (h : Inv d s a) {i : Int} {v : α}
    (hi : 0 ≤ i ∧ i < 1073741824) (hroom : a.freed = [] → a.next < 1073741824) :
    ∃ s', addFirst d i v s = .ok a.entry s' ∧
      Inv d s' { a.take with lists := upd a.lists i ((a.entry, v) :: a.lists i),
                             total := a.total + 1 } := by
  obtain ⟨s1, e1, h1, hi1⟩ := ensureList_spec h hi
  obtain ⟨s2, e2, h2, hh, ht, hrng, hfresh, hfree⟩ := allocateEntry_spec h1 hroom
  have hfresh' : ∀ j, a.entry ∉ E a.take j := by
    intro j; rw [E, take_lists]; exact hfresh j
  have hiH : 0 ≤ i ∧ i < s2.heads.len := by rw [hh]; exact ⟨hi.1, hi1⟩
  have hiT : 0 ≤ i ∧ i < s2.tails.len := by rw [h2.hl]; exact hiH
  have hiC : 0 ≤ i ∧ i < s2.count.len := by rw [h2.hc]; exact hiH
  have hx := h2.nx0
  have hvn := h2.vn
  have hvp := h2.vp
  have hold : s1.heads.get i = hd (E a.take i) := by rw [← hh]; exact h2.head i hiH.1 hiH.2
  have htail := h2.tail i hiH.1 hiH.2
  have hnd : ((E a.take i).reverse ++ [a.entry]).Nodup := by
    rw [← List.reverse_cons, (List.reverse_perm _).nodup_iff]
    exact List.nodup_cons.mpr ⟨hfresh' i, h2.nd i⟩
  unfold addFirst
  rw [JM.bind_ok e1, JM.bind_ok (rd_ok _ ⟨hi.1, hi1⟩), JM.bind_ok e2, JM.bind_ok (wr_ok _ _ (by omega)),
    JM.bind_ok (wr_ok _ _ (by exact hiH)), JM.bind_ok (addCount_ok (by exact hiC))]
  simp only
  rw [hold, ← take_lists a, ← take_total a]
  generalize hb : a.take = b at *
  generalize a.entry = e at *
  by_cases hemp : b.lists i = []
  · rw [if_pos ((hd_neg h2 i).mpr hemp), JM.bind_ok (wr_ok _ _ (by exact hiT)), JM.bind_ok (wr_ok _ _ (by simp only; omega)),
      JM.bind_ok (JM.modify_apply _ _)]
    refine ⟨_, rfl, insert_inv h2 (e := e) (v := v) hiH hrng hfresh' hfree (List.Perm.refl _)
      rfl ?_ rfl rfl rfl rfl ?_ ?_ ?_ ?_ rfl rfl rfl⟩
    · simp [hemp]
    · intro x hxe _; exact Arr.get_set_ne _ _ hxe
    · intro x _ _; rfl
    · simp [hemp, Links, E]
    · simp only [hemp, List.map_cons, List.map_nil, List.reverse_cons, List.reverse_nil, List.nil_append]
      exact ⟨(h2.idle e hrng.1 (by omega) hfresh').1, trivial⟩
  · have hne : E b i ≠ [] := by simp [E, hemp]
    have hhd := hd_mem hne
    have hhr := h2.rng i _ hhd
    rw [if_neg (fun hc => hemp ((hd_neg h2 i).mp hc)), JM.bind_ok (wr_ok _ _ (by simp only; omega)),
      JM.bind_ok (wr_ok _ _ (by simp only; omega)), JM.bind_ok (JM.modify_apply _ _)]
    refine ⟨_, rfl, insert_inv h2 (e := e) (v := v) hiH hrng hfresh' hfree (List.Perm.refl _)
      rfl ?_ rfl rfl rfl rfl ?_ ?_ ?_ ?_ rfl rfl rfl⟩
    · simp only [List.map_cons, List.reverse_cons]
      rw [hd_append (by simpa using hemp)]
      show s2.tails = s2.tails.set i (hd (E b i).reverse)
      rw [← htail, set_get]
    · intro x hxe _; exact Arr.get_set_ne _ _ hxe
    · intro x _ hxi
      exact Arr.get_set_ne _ _ (fun hc => hxi (hc ▸ hhd))
    · refine ⟨by simp [E], ?_⟩
      exact (h2.fwd i).congr fun x hxm => by
        rw [Arr.get_set_ne]; intro hc; exact hfresh' i (hc ▸ hxm)
    · rw [List.map_cons, List.reverse_cons]
      refine (h2.bwd i).snoc hnd ?_ ?_ ?_
      · intro x _ hxne
        rw [List.reverse_reverse] at hxne
        exact Arr.get_set_ne _ _ hxne
      · intro _
        rw [List.reverse_reverse]
        exact Arr.get_set_self _ _ _
      · simp only
        have hne' : e ≠ hd (E b i) := fun hc => hfresh' i (hc ▸ hhd)
        rw [Arr.get_set_ne _ _ hne']
        exact (h2.idle e hrng.1 (by omega) hfresh').1

theorem addLast_spec {d : α} {s : Hydra α} {a : Stored α} (h : Inv d s a) {i : Int} {v : α}
    (hi : 0 ≤ i ∧ i < 1073741824) (hroom : a.freed = [] → a.next < 1073741824) :
    ∃ s', addLast d i v s = .ok a.entry s' ∧
      Inv d s' { a.take with lists := upd a.lists i (a.lists i ++ [(a.entry, v)]),
                             total := a.total + 1 } := by
  obtain ⟨s1, e1, h1, hi1⟩ := ensureList_spec h hi
  obtain ⟨s2, e2, h2, hh, ht, hrng, hfresh, hfree⟩ := allocateEntry_spec h1 hroom
  have hfresh' : ∀ j, a.entry ∉ E a.take j := by
    intro j; rw [E, take_lists]; exact hfresh j
  have hiH : 0 ≤ i ∧ i < s2.heads.len := by rw [hh]; exact ⟨hi.1, hi1⟩
  have hiT : 0 ≤ i ∧ i < s2.tails.len := by rw [h2.hl]; exact hiH
  have hiC : 0 ≤ i ∧ i < s2.count.len := by rw [h2.hc]; exact hiH
  have hx := h2.nx0
  have hvn := h2.vn
  have hvp := h2.vp
  have hold : s1.tails.get i = hd (E a.take i).reverse := by rw [← ht]; exact h2.tail i hiH.1 hiH.2
  have hhead := h2.head i hiH.1 hiH.2
  have hnd : ((E a.take i) ++ [a.entry]).Nodup := by
    rw [(List.perm_append_comm).nodup_iff]
    exact List.nodup_cons.mpr ⟨hfresh' i, h2.nd i⟩
  unfold addLast
  rw [JM.bind_ok e1, JM.bind_ok (rd_ok _ (by rw [← ht]; exact hiT)), JM.bind_ok e2,
    JM.bind_ok (wr_ok _ _ (by omega)),
    JM.bind_ok (wr_ok _ _ (by exact hiT)), JM.bind_ok (addCount_ok (by exact hiC))]
  simp only
  rw [hold, ← take_lists a, ← take_total a]
  generalize hb : a.take = b at *
  generalize a.entry = e at *
  have hperm : (b.lists i ++ [(e, v)]).Perm ((e, v) :: b.lists i) := by
    simpa using List.perm_append_comm (l₁ := b.lists i) (l₂ := [(e, v)])
  by_cases hemp : b.lists i = []
  · rw [if_pos ((hd_rev_neg h2 i).mpr hemp), JM.bind_ok (wr_ok _ _ (by exact hiH)),
      JM.bind_ok (wr_ok _ _ (by simp only; omega)), JM.bind_ok (wr_ok _ _ (by simp only; omega)),
      JM.bind_ok (JM.modify_apply _ _)]
    refine ⟨_, rfl, insert_inv h2 (e := e) (v := v) hiH hrng hfresh' hfree hperm
      ?_ ?_ rfl rfl rfl rfl ?_ ?_ ?_ ?_ rfl rfl rfl⟩
    · simp [hemp]
    · simp [hemp]
    · intro x hxe _; exact Arr.get_set_ne _ _ hxe
    · intro x hxe _; exact Arr.get_set_ne _ _ hxe
    · simp [hemp, Links, E]
    · simp [hemp, Links, E]
  · have hne : (E b i).reverse ≠ [] := by simp [E, hemp]
    have hhd := hd_mem hne
    have hhd' := List.mem_reverse.mp hhd
    have hhr := h2.rng i _ hhd'
    rw [if_neg (fun hc => hemp ((hd_rev_neg h2 i).mp hc)), JM.bind_ok (wr_ok _ _ (by simp only; omega)),
      JM.bind_ok (wr_ok _ _ (by simp only [Arr.len_set]; omega)), JM.bind_ok (wr_ok _ _ (by simp only; omega)),
      JM.bind_ok (JM.modify_apply _ _)]
    have hneq : hd (E b i).reverse ≠ e := fun hc => hfresh' i (hc ▸ hhd')
    refine ⟨_, rfl, insert_inv h2 (e := e) (v := v) hiH hrng hfresh' hfree hperm
      ?_ ?_ rfl rfl rfl rfl ?_ ?_ ?_ ?_ rfl rfl rfl⟩
    · simp only [List.map_append]
      rw [hd_append (by simpa using hemp)]
      show s2.heads = s2.heads.set i (hd (E b i))
      rw [← hhead, set_get]
    · simp
    · intro x hxe hxi
      have hxn : x ≠ hd (E b i).reverse := fun hc => hxi (hc ▸ hhd')
      simp only
      rw [Arr.get_set_ne _ _ hxe, Arr.get_set_ne _ _ hxn]
    · intro x hxe _; exact Arr.get_set_ne _ _ hxe
    · rw [List.map_append]
      refine (h2.fwd i).snoc hnd ?_ ?_ ?_
      · intro x hxm hxne
        have hxe : x ≠ e := fun hc => hfresh' i (hc ▸ hxm)
        simp only
        rw [Arr.get_set_ne _ _ hxe, Arr.get_set_ne _ _ hxne]
      · intro _
        simp only
        rw [Arr.get_set_ne _ _ hneq, Arr.get_set_self]
      · exact Arr.get_set_self _ _ _
    · rw [List.map_append, List.reverse_append]
      refine ⟨by simp [E], ?_⟩
      exact (h2.bwd i).congr fun x hxm => by
        simp only
        rw [Arr.get_set_ne]; intro hc; exact hfresh' i (hc ▸ List.mem_reverse.mp hxm)

end Verif.Hydra
