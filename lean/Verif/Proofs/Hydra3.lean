import Verif.Proofs.Hydra2
set_option linter.unusedSectionVars false
/-! Removals from the hydra deque. -/
namespace Verif.Hydra
open Verif.HydraSpec Verif.Linked
variable {α : Type}

/-- The invariant after the removal of entry `e` from list `i`, whatever end. -/
theorem remove_inv {d : α} {s s' : Hydra α} {b : Stored α} (h : Inv d s b) {i e : Int} {v : α}
    {l' : List (Int × α)} (hi : 0 ≤ i ∧ i < s.heads.len)
    (hperm : (b.lists i).Perm ((e, v) :: l'))
    (hheads : s'.heads = s.heads.set i (hd (l'.map Prod.fst)))
    (htails : s'.tails = s.tails.set i (hd (l'.map Prod.fst).reverse))
    (hcount : s'.count = s.count.set i (s.count.get i - 1))
    (hvalues : s'.values = s.values.set e d)
    (hnl : s'.nexts.len = s.nexts.len) (hpl : s'.prevs.len = s.prevs.len)
    (hn : ∀ x, x ∉ E b i → s'.nexts.get x = s.nexts.get x)
    (hp : ∀ x, x ∉ E b i → s'.prevs.get x = s.prevs.get x)
    (hne : s'.nexts.get e = s.freeList) (hpe : s'.prevs.get e = -1)
    (hfwd : Links s'.nexts.get (l'.map Prod.fst)) (hbwd : Links s'.prevs.get (l'.map Prod.fst).reverse)
    (hfl : s'.freeList = -e - 2) (hme : s'.maxEntry = s.maxEntry) (hsz : s'.size = s.size - 1) :
    Inv d s' { b with lists := upd b.lists i l', total := b.total - 1, freed := e :: b.freed } := by
  have hmemi : ∀ x, x ∈ E b i ↔ x = e ∨ x ∈ l'.map Prod.fst := by
    intro x; rw [E, (hperm.map Prod.fst).mem_iff]; simp
  have hei : e ∈ E b i := (hmemi e).mpr (.inl rfl)
  have hndi : e ∉ l'.map Prod.fst ∧ (l'.map Prod.fst).Nodup := by
    have := h.nd i
    rw [E, (hperm.map Prod.fst).nodup_iff] at this
    exact List.nodup_cons.mp this
  have hmem : ∀ j x, x ∈ (upd b.lists i l' j).map Prod.fst ↔ x ∈ E b j ∧ x ≠ e := by
    intro j x
    by_cases hj : j = i
    · subst hj
      rw [upd_self, hmemi]
      constructor
      · intro hx; exact ⟨.inr hx, fun hc => hndi.1 (hc ▸ hx)⟩
      · rintro ⟨hx | hx, hx'⟩
        · exact absurd hx hx'
        · exact hx
    · rw [upd_ne _ _ hj]
      exact ⟨fun hx => ⟨hx, fun hc => hj (h.dj j i e (hc ▸ hx) hei)⟩, fun hx => hx.1⟩
  have hother : ∀ j, j ≠ i → ∀ x ∈ E b j, x ∉ E b i :=
    fun j hj x hx hc => hj (h.dj j i x hx hc)
  have hlen : (b.lists i).length = l'.length + 1 := by rw [hperm.length_eq]; simp
  have hsum := sumLen_upd b.lists i l' s.heads.len hi
  have h1 := h.hl
  have h2 := h.hc
  have h3 := h.vn
  have h4 := h.vp
  have h5 := h.sum
  have her := h.rng i e hei
  have hef : e ∉ b.freed := h.fdj i e hei
  exact {
    hl := by rw [hheads, htails]; simpa using h.hl
    hc := by rw [hheads, hcount]; simpa using h.hc
    vn := by rw [hnl, hvalues]; simpa using h.vn
    vp := by rw [hpl, hvalues]; simpa using h.vp
    out := fun j hj => by
      rw [hheads] at hj; simp only [Arr.len_set] at hj
      simp only; rw [upd_ne _ _ (by omega)]; exact h.out j hj
    head := fun j h0 hj => by
      rw [hheads] at hj ⊢; simp only [Arr.len_set] at hj
      rw [Arr.get_set]
      by_cases hji : j = i
      · rw [if_pos hji, E, hji]; simp only; rw [upd_self]
      · rw [if_neg hji, E]; simp only; rw [upd_ne _ _ hji]; exact h.head j h0 hj
    tail := fun j h0 hj => by
      rw [hheads] at hj; simp only [Arr.len_set] at hj
      rw [htails, Arr.get_set]
      by_cases hji : j = i
      · rw [if_pos hji, E, hji]; simp only; rw [upd_self]
      · rw [if_neg hji, E]; simp only; rw [upd_ne _ _ hji]; exact h.tail j h0 hj
    cnt := fun j h0 hj => by
      rw [hheads] at hj; simp only [Arr.len_set] at hj
      rw [hcount, Arr.get_set]
      by_cases hji : j = i
      · rw [if_pos hji, hji]; simp only; rw [upd_self, h.cnt i hi.1 hi.2, hlen]; omega
      · rw [if_neg hji]; simp only; rw [upd_ne _ _ hji]; exact h.cnt j h0 hj
    fwd := fun j => by
      by_cases hji : j = i
      · rw [hji, E]; simp only; rw [upd_self]; exact hfwd
      · rw [E]; simp only; rw [upd_ne _ _ hji]
        exact (h.fwd j).congr fun x hx => (hn x (hother j hji x hx)).symm
    bwd := fun j => by
      by_cases hji : j = i
      · rw [hji, E]; simp only; rw [upd_self]; exact hbwd
      · rw [E]; simp only; rw [upd_ne _ _ hji]
        exact (h.bwd j).congr fun x hx => (hp x (hother j hji x (List.mem_reverse.mp hx))).symm
    vals := fun j x w hm => by
      have hx := ((hmem j x).mp (List.mem_map_of_mem (f := Prod.fst) hm)).2
      rw [hvalues, Arr.get_set_ne _ _ hx]
      simp only at hm
      by_cases hji : j = i
      · rw [hji, upd_self] at hm
        exact h.vals i x w (hperm.mem_iff.mpr (List.mem_cons_of_mem _ hm))
      · rw [upd_ne _ _ hji] at hm; exact h.vals j x w hm
    idle := fun x h0 hx hnot => by
      rw [hvalues] at hx ⊢; simp only [Arr.len_set] at hx
      by_cases hxe : x = e
      · rw [hxe, Arr.get_set_self]; exact ⟨hpe, rfl⟩
      · have hxn : ∀ j, x ∉ E b j := fun j hc => hnot j ((hmem j x).mpr ⟨hc, hxe⟩)
        rw [Arr.get_set_ne _ _ hxe, hp x (hxn i)]
        exact h.idle x h0 hx hxn
    rng := fun j x hx => h.rng j x ((hmem j x).mp hx).1
    frng := fun x hx => by
      rcases List.mem_cons.mp hx with rfl | hx
      · exact her
      · exact h.frng x hx
    nd := fun j => by
      by_cases hji : j = i
      · rw [hji, E]; simp only; rw [upd_self]; exact hndi.2
      · rw [E]; simp only; rw [upd_ne _ _ hji]; exact h.nd j
    dj := fun j k x hx hy => h.dj j k x ((hmem j x).mp hx).1 ((hmem k x).mp hy).1
    fnd := List.nodup_cons.mpr ⟨hef, h.fnd⟩
    fdj := fun j x hx hc => by
      rcases List.mem_cons.mp hc with hc | hc
      · exact ((hmem j x).mp hx).2 hc
      · exact h.fdj j x ((hmem j x).mp hx).1 hc
    fch := ⟨by rw [hne]; exact h.fl,
      h.fch.congr fun x hx => (hn x (fun hc => h.fdj i x hc hx)).symm⟩
    fl := hfl
    nx := by rw [hme]; exact h.nx
    nx0 := by rw [hvalues]; simpa using h.nx0
    tot := by rw [hsz]; simp only; rw [h.tot]
    sum := by
      rw [hheads]; simp only [Arr.len_set]
      omega }

/-- Removal from an empty (or unknown) list. -/
theorem validate_none {d : α} {s : Hydra α} {a : Stored α} (h : Inv d s a) {i : Int}
    (hl : a.lists i = []) :
    validate i Hydra.heads s = .err .noSuchElement s ∧
    validate i Hydra.tails s = .err .noSuchElement s := by
  unfold validate
  rw [JM.bind_ok (JM.get_apply _), JM.bind_ok (JM.get_apply _)]
  by_cases h0 : s.size = 0
  · rw [if_pos h0, if_pos h0]; exact ⟨rfl, rfl⟩
  · rw [if_neg h0, if_neg h0]
    by_cases hi : i < 0 ∨ i ≥ s.heads.len
    · rw [if_pos hi, if_pos hi]; exact ⟨rfl, rfl⟩
    · rw [if_neg hi, if_neg hi]
      have hl2 := h.hl
      rw [JM.bind_ok (rd_ok _ (by omega)), JM.bind_ok (rd_ok _ (by omega))]
      rw [h.head i (by omega) (by omega), h.tail i (by omega) (by omega)]
      simp only [E, hl, List.map_nil, List.reverse_nil, hd_nil]
      exact ⟨rfl, rfl⟩

theorem validate_some {d : α} {s : Hydra α} {a : Stored α} (h : Inv d s a) {i : Int}
    (hl : a.lists i ≠ []) :
    (0 ≤ i ∧ i < s.heads.len) ∧
    validate i Hydra.heads s = .ok (hd (E a i)) s ∧
    validate i Hydra.tails s = .ok (hd (E a i).reverse) s := by
  have hi : 0 ≤ i ∧ i < s.heads.len := by
    by_cases hc : 0 ≤ i ∧ i < s.heads.len
    · exact hc
    · exact absurd (h.out i (by omega)) hl
  have hsz : s.size ≠ 0 := by
    intro hc
    have h1 := h.tot
    have h2 := h.sum
    have := sumLen_zero a.lists s.heads.len (by omega) i.toNat (by omega)
    rw [Int.toNat_of_nonneg hi.1] at this
    exact hl this
  have hl2 := h.hl
  refine ⟨hi, ?_, ?_⟩
  · have hm : hd (E a i) ∈ E a i := hd_mem (by simp [E, hl])
    have := h.rng i _ hm
    unfold validate
    rw [JM.bind_ok (JM.get_apply _), if_neg hsz, if_neg (by omega), JM.bind_ok (rd_ok _ (by omega)),
      h.head i hi.1 hi.2, if_neg (by omega)]; rfl
  · have hm : hd (E a i).reverse ∈ (E a i).reverse := hd_mem (by simp [E, hl])
    have := h.rng i _ (List.mem_reverse.mp hm)
    unfold validate
    rw [JM.bind_ok (JM.get_apply _), if_neg hsz, if_neg (by omega), JM.bind_ok (rd_ok _ (by omega)),
      h.tail i hi.1 hi.2, if_neg (by omega)]; rfl

theorem release_ok {d : α} {s : Hydra α} {e : Int} (hv : 0 ≤ e ∧ e < s.values.len)
    (hn : e < s.nexts.len) :
    release d e s = .ok (s.values.get e) { s with
      values := s.values.set e d, size := s.size - 1, nexts := s.nexts.set e s.freeList,
      freeList := -e - 2 } := by
  unfold release addToFreeList
  rw [JM.bind_ok (rd_ok _ hv), JM.bind_ok (wr_ok _ _ hv), JM.bind_ok (JM.modify_apply _ _)]
  have h2 : (do
      let t ← (get : JM (Hydra α) (Hydra α))
      wrNexts e t.freeList
      modify fun t => { t with freeList := -e - 2 } : JM (Hydra α) Unit)
      { s with values := s.values.set e d, size := s.size - 1 } =
      .ok () { s with
        values := s.values.set e d, size := s.size - 1, nexts := s.nexts.set e s.freeList,
        freeList := -e - 2 } := by
    rw [JM.bind_ok (JM.get_apply _), JM.bind_ok (wr_ok _ _ (by exact ⟨hv.1, hn⟩))]
    rfl
  rw [JM.bind_ok h2]; rfl

theorem removeFirst_spec {d : α} {s : Hydra α} {a : Stored α} (h : Inv d s a) {i e : Int} {v : α}
    {l : List (Int × α)} (hl : a.lists i = (e, v) :: l) :
    ∃ s', removeFirst d i s = .ok v s' ∧
      Inv d s' { a with lists := upd a.lists i l, total := a.total - 1, freed := e :: a.freed } := by
  obtain ⟨hi, hval, _⟩ := validate_some h (i := i) (by rw [hl]; simp)
  have hE : E a i = e :: l.map Prod.fst := by simp [E, hl]
  have her := h.rng i e (by rw [hE]; simp)
  have hiT : 0 ≤ i ∧ i < s.tails.len := by rw [h.hl]; exact hi
  have hiC : 0 ≤ i ∧ i < s.count.len := by rw [h.hc]; exact hi
  have hx := h.nx0
  have hvn := h.vn
  have hvp := h.vp
  have hfw := h.fwd i
  have hbw := h.bwd i
  have hnd := h.nd i
  have htl := h.tail i hi.1 hi.2
  have hvv := h.vals i e v (by rw [hl]; simp)
  rw [hE] at hfw hbw hnd htl hval
  have hnx : s.nexts.get e = hd (l.map Prod.fst) := hfw.1
  rw [hd_cons] at hval
  have hrev : ((e :: l.map Prod.fst).reverse).Nodup := by
    rw [(List.reverse_perm _).nodup_iff]; exact hnd
  rw [List.reverse_cons] at hbw htl hrev
  unfold removeFirst
  rw [JM.bind_ok hval, JM.bind_ok (rd_ok _ (by omega)), JM.bind_ok (wr_ok _ _ hi),
    JM.bind_ok (addCount_ok (by exact hiC)), JM.bind_ok (rd_ok _ (by exact hiT)), hnx]
  simp only
  rw [htl]
  by_cases hemp : l = []
  · subst hemp
    simp only [List.map_nil, List.reverse_nil, List.nil_append, hd_cons, hd_nil]
    rw [JM.when_pos trivial, JM.bind_ok (wr_ok _ _ (by exact hiT)), JM.when_neg (by simp),
      JM.bind_ok (JM.pure_apply _ _), release_ok (by simp only; omega) (by simp only; omega)]
    refine ⟨_, congrArg (fun z => Res.ok z _) hvv, remove_inv h hi (e := e) (v := v) (by rw [hl]) (by simp) (by simp) rfl rfl rfl rfl
      ?_ ?_ ?_ ?_ trivial trivial rfl rfl rfl⟩
    · intro x hxm; exact Arr.get_set_ne _ _ (by rintro rfl; exact hxm (by rw [hE]; simp))
    · intro x _; rfl
    · exact Arr.get_set_self _ _ _
    · have := hbw.1; simpa using this
  · have hne : l.map Prod.fst ≠ [] := by simpa using hemp
    have hm := hd_mem hne
    have hmr := h.rng i (hd (l.map Prod.fst)) (by rw [hE]; exact List.mem_cons_of_mem _ hm)
    have hnd' := List.nodup_cons.mp hnd
    have hrne : (l.map Prod.fst).reverse ≠ [] := by simpa using hemp
    have hlast := hd_mem hrne
    rw [hd_append hrne]
    have hlne : hd (l.map Prod.fst).reverse ≠ e := by
      intro hc; exact hnd'.1 (hc ▸ List.mem_reverse.mp hlast)
    have hhne : hd (l.map Prod.fst) ≠ e := by intro hc; exact hnd'.1 (hc ▸ hm)
    rw [JM.when_neg hlne, JM.bind_ok (JM.pure_apply _ _), JM.when_pos (by omega),
      JM.bind_ok (wr_ok _ _ (by simp only; omega)), release_ok (by simp only; omega) (by simp only; omega)]
    refine ⟨_, congrArg (fun z => Res.ok z _) hvv, remove_inv h hi (e := e) (v := v) (by rw [hl]) rfl ?_ rfl rfl rfl rfl
      ?_ ?_ ?_ ?_ ?_ ?_ rfl rfl rfl⟩
    · show s.tails = _
      rw [← hd_append hrne [e], ← htl, set_get]
    · intro x hxm; exact Arr.get_set_ne _ _ (by rintro rfl; exact hxm (by rw [hE]; simp))
    · intro x hxm
      have hxn : x ≠ hd (l.map Prod.fst) := by
        rintro rfl; exact hxm (by rw [hE]; exact List.mem_cons_of_mem _ hm)
      exact Arr.get_set_ne _ _ hxn
    · exact Arr.get_set_self _ _ _
    · show (s.prevs.set _ _).get e = -1
      rw [Arr.get_set_ne _ _ (Ne.symm hhne)]
      exact hbw.last
    · exact hfw.2.congr fun x hxm => by
        have : x ≠ e := by rintro rfl; exact hnd'.1 hxm
        exact (Arr.get_set_ne _ _ this).symm
    · refine hbw.dropLast hrev ?_ ?_
      · intro x _ hxn
        rw [List.reverse_reverse] at hxn
        exact Arr.get_set_ne _ _ hxn
      · intro _
        rw [List.reverse_reverse]
        exact Arr.get_set_self _ _ _

theorem removeLast_spec {d : α} {s : Hydra α} {a : Stored α} (h : Inv d s a) {i e : Int} {v : α}
    {l : List (Int × α)} (hl : a.lists i = l ++ [(e, v)]) :
    ∃ s', removeLast d i s = .ok v s' ∧
      Inv d s' { a with lists := upd a.lists i l, total := a.total - 1, freed := e :: a.freed } := by
  obtain ⟨hi, _, hval⟩ := validate_some h (i := i) (by rw [hl]; simp)
  have hE : E a i = l.map Prod.fst ++ [e] := by simp [E, hl]
  have her := h.rng i e (by rw [hE]; simp)
  have hiT : 0 ≤ i ∧ i < s.tails.len := by rw [h.hl]; exact hi
  have hiC : 0 ≤ i ∧ i < s.count.len := by rw [h.hc]; exact hi
  have hx := h.nx0
  have hvn := h.vn
  have hvp := h.vp
  have hfw := h.fwd i
  have hbw := h.bwd i
  have hnd := h.nd i
  have hhl := h.head i hi.1 hi.2
  have hvv := h.vals i e v (by rw [hl]; simp)
  have hperm : (a.lists i).Perm ((e, v) :: l) := by
    rw [hl]; exact List.perm_append_comm
  rw [hE] at hfw hbw hnd hhl hval
  rw [List.reverse_append] at hbw hval
  have hpx : s.prevs.get e = hd (l.map Prod.fst).reverse := hbw.1
  have hval : validate i Hydra.tails s = .ok e s := hval
  have hnd' : e ∉ l.map Prod.fst := by
    have := hnd
    rw [(List.perm_append_comm).nodup_iff] at this
    exact (List.nodup_cons.mp this).1
  unfold removeLast
  rw [JM.bind_ok hval, JM.bind_ok (rd_ok _ (by omega)), JM.bind_ok (wr_ok _ _ hiT),
    JM.bind_ok (addCount_ok (by exact hiC)), JM.bind_ok (rd_ok _ (by exact hi)), hpx]
  simp only
  rw [hhl]
  by_cases hemp : l = []
  · subst hemp
    simp only [List.map_nil, List.reverse_nil, List.nil_append, hd_cons, hd_nil]
    rw [JM.when_pos trivial, JM.bind_ok (wr_ok _ _ (by exact hi)), JM.when_neg (by simp),
      JM.bind_ok (JM.pure_apply _ _), release_ok (by simp only; omega) (by simp only; omega)]
    refine ⟨_, congrArg (fun z => Res.ok z _) hvv, remove_inv h hi (e := e) (v := v) (by rw [hl]; simp) (by simp) (by simp) rfl rfl rfl rfl
      ?_ ?_ ?_ ?_ trivial trivial rfl rfl rfl⟩
    · intro x hxm; exact Arr.get_set_ne _ _ (by rintro rfl; exact hxm (by rw [hE]; simp))
    · intro x _; rfl
    · exact Arr.get_set_self _ _ _
    · simpa using hpx
  · have hne : l.map Prod.fst ≠ [] := by simpa using hemp
    have hrne : (l.map Prod.fst).reverse ≠ [] := by simpa using hemp
    have hm := List.mem_reverse.mp (hd_mem hrne)
    have hmr := h.rng i (hd (l.map Prod.fst).reverse) (by rw [hE]; exact List.mem_append_left _ hm)
    rw [hd_append hne] at hhl ⊢
    have hhne : hd (l.map Prod.fst) ≠ e := by
      intro hc; exact hnd' (hc ▸ hd_mem hne)
    have hlne : hd (l.map Prod.fst).reverse ≠ e := by intro hc; exact hnd' (hc ▸ hm)
    rw [JM.when_neg hhne, JM.bind_ok (JM.pure_apply _ _), JM.when_pos (by omega)]
    rw [JM.bind_ok (a := ()) (s' := { s with
        tails := s.tails.set i (hd (l.map Prod.fst).reverse),
        count := s.count.set i (s.count.get i + -1),
        nexts := s.nexts.set (hd (l.map Prod.fst).reverse) (-1),
        prevs := s.prevs.set e (-1) })
      (by rw [JM.bind_ok (wr_ok _ _ (by simp only; omega)), wr_ok _ _ (by simp only; omega)])]
    rw [release_ok (by simp only; omega) (by simp only [Arr.len_set]; omega)]
    refine ⟨_, congrArg (fun z => Res.ok z _) hvv, remove_inv h hi (e := e) (v := v) hperm ?_ rfl rfl rfl rfl rfl
      ?_ ?_ ?_ ?_ ?_ ?_ rfl rfl rfl⟩
    · show s.heads = _
      rw [← hhl, set_get]
    · intro x hxm
      have hxe : x ≠ e := by rintro rfl; exact hxm (by rw [hE]; simp)
      have hxn : x ≠ hd (l.map Prod.fst).reverse := by
        rintro rfl; exact hxm (by rw [hE]; exact List.mem_append_left _ hm)
      show ((s.nexts.set _ _).set _ _).get x = _
      rw [Arr.get_set_ne _ _ hxe, Arr.get_set_ne _ _ hxn]
    · intro x hxm; exact Arr.get_set_ne _ _ (by rintro rfl; exact hxm (by rw [hE]; simp))
    · exact Arr.get_set_self _ _ _
    · exact Arr.get_set_self _ _ _
    · refine hfw.dropLast hnd ?_ ?_
      · intro x hxm hxn
        have hxe : x ≠ e := by rintro rfl; exact hnd' hxm
        show ((s.nexts.set _ _).set _ _).get x = _
        rw [Arr.get_set_ne _ _ hxe, Arr.get_set_ne _ _ hxn]
      · intro _
        show ((s.nexts.set _ _).set _ _).get _ = _
        rw [Arr.get_set_ne _ _ hlne, Arr.get_set_self]
    · exact hbw.2.congr fun x hxm => by
        have : x ≠ e := by rintro rfl; exact hnd' (List.mem_reverse.mp hxm)
        exact (Arr.get_set_ne _ _ this).symm

end Verif.Hydra
