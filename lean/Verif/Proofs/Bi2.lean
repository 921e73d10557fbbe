import Verif.Proofs.Bi1
/-! Proofs about the two-sided collections, part 2: taking an entry out of a side. -/
set_option linter.unusedSectionVars false
namespace Verif
namespace Side
variable {sd : Side} {ps : List (Int × Int)} {room span : Int} {counted : Bool}

theorem Links.unlink {n p n' p' : Arr Int} {q e : Int} {post : List Int} (hlen : n'.len = n.len)
    (hq : n'.get q = post.headD (-1)) (hx : ∀ x t, post = x :: t → p'.get x = q) :
    ∀ (pre : List Int), Links n p (pre ++ q :: e :: post) → (pre ++ q :: e :: post).Nodup →
    (∀ x ∈ pre ++ q :: e :: post, 0 ≤ x) →
    (∀ x ∈ pre ++ q :: e :: post, x ≠ q → x ≠ e → n'.get x = n.get x) →
    (∀ x ∈ pre ++ q :: e :: post, x ≠ e → (∀ y t, post = y :: t → x ≠ y) → p'.get x = p.get x) →
    Links n' p' (pre ++ q :: post)
  | [], h, hn, h0, h1, h2 => by
    simp only [List.nil_append] at *
    cases post with
    | nil => intro _; exact hq
    | cons x t =>
      obtain ⟨g1, _, _, _, _, g6, _, _, g9⟩ := h
      simp only [List.nodup_cons, List.mem_cons, not_or] at hn
      obtain ⟨⟨n1, n2, n3⟩, ⟨n4, n5⟩, n6, n7⟩ := hn
      refine ⟨by omega, by omega, hq, hx x t rfl, ?_⟩
      refine Links.congr g9 (by omega) ?_ ?_ ?_ ?_ ?_
      · intro y hy; exact h0 y (by simp at hy ⊢; tauto)
      · exact List.nodup_cons.2 ⟨n6, n7⟩
      · intro y hy _
        refine h1 y (by simp at hy ⊢; tauto) ?_ ?_
        · rintro rfl
          rcases List.mem_cons.1 hy with rfl | hy
          · exact n2 rfl
          · exact n3 hy
        · rintro rfl
          rcases List.mem_cons.1 hy with rfl | hy
          · exact n4 rfl
          · exact n5 hy
      · intro y hy _
        simp only [List.tail_cons] at hy
        refine h2 y (by simp; tauto) ?_ ?_
        · rintro rfl; exact n5 hy
        · intro z u hz
          injection hz with hz1 hz2
          subst hz1
          rintro rfl; exact n6 hy
      · intro y _ _ _; omega
  | [a], h, hn, h0, h1, h2 => by
    simp only [List.cons_append, List.nil_append] at *
    have hr := Links.unlink hlen hq hx [] h.2.2.2.2 (List.nodup_cons.1 hn).2
      (fun x hx => h0 x (List.mem_cons_of_mem _ hx)) (fun x hx => h1 x (List.mem_cons_of_mem _ hx))
      (fun x hx => h2 x (List.mem_cons_of_mem _ hx))
    obtain ⟨g1, g2, g3, g4, _⟩ := h
    simp only [List.nodup_cons, List.mem_cons, not_or] at hn
    obtain ⟨⟨n1, n2, n3⟩, ⟨n4, n5⟩, n6, n7⟩ := hn
    refine ⟨by omega, by omega, ?_, ?_, hr⟩
    · rw [h1 a (by simp) n1 n2]; exact g3
    · rw [h2 q (by simp) n4 ?_]; exact g4
      intro y t hy
      rintro rfl
      rw [hy] at n5; simp at n5
  | a :: b :: pre, h, hn, h0, h1, h2 => by
    have hr := Links.unlink hlen hq hx (b :: pre) h.2.2.2.2 (List.nodup_cons.1 hn).2
      (fun x hx => h0 x (List.mem_cons_of_mem _ hx)) (fun x hx => h1 x (List.mem_cons_of_mem _ hx))
      (fun x hx => h2 x (List.mem_cons_of_mem _ hx))
    obtain ⟨g1, g2, g3, g4, _⟩ := h
    simp only [List.cons_append, List.nodup_cons, List.mem_cons, not_or, List.mem_append] at hn
    obtain ⟨⟨n1, n2, n3, n4, n5⟩, ⟨n6, n7, n8, n9⟩, _⟩ := hn
    refine ⟨by omega, by omega, ?_, ?_, hr⟩
    · rw [h1 a (by simp) n3 n4]; exact g3
    · rw [h2 b (by simp) n8 ?_]
      · exact g4
      · intro y t hy
        rintro rfl
        rw [hy] at n9; simp at n9

/-- The predecessor of an entry inside a list. -/
theorem Links.prev {n p : Arr Int} {q e : Int} {post : List Int} : ∀ (pre : List Int),
    Links n p (pre ++ q :: e :: post) → p.get e = q
  | [], h => h.2.2.2.1
  | a :: pre, h => Links.prev pre (Links.tail (by simpa using h))

theorem split_at {l : List Int} {e : Int} (h : e ∈ l) :
    (∃ t, l = e :: t) ∨ ∃ pre q post, l = pre ++ q :: e :: post := by
  obtain ⟨s, t, rfl⟩ := List.append_of_mem h
  rcases List.eq_nil_or_concat s with rfl | ⟨pre, q, rfl⟩
  · exact .inl ⟨t, rfl⟩
  · exact .inr ⟨pre, q, t, by simp⟩

theorem filter_ne_of_notMem {l : List Int} {e : Int} (h : e ∉ l) : l.filter (· ≠ e) = l := by
  rw [List.filter_eq_self]
  intro x hx
  simp only [ne_eq, decide_not, Bool.not_eq_eq_eq_not, Bool.not_true, decide_eq_false_iff_not]
  rintro rfl; exact h hx

/-- `removeEntry` takes an entry out of the list of its key. -/
theorem removeEntry_ok (h : Inv sd ps room span counted) {k e : Int} (hm : (k, e) ∈ ps)
    (hc : ∀ x, ent ps k = [x] → x < room) (hb : ps.length < 1073741824) :
    ∃ sd', removeEntry k e sd = .ok () sd' ∧
      Inv sd' (ps.filter fun p => p.2 ≠ e) room span counted := by
  have hek : e ∈ ent ps k := mem_ent.2 hm
  have he0 : 0 ≤ e := h.en _ hm
  have hel : e < sd.nexts.len := covered_bound h hc hek
  have hk := h.ks _ hm
  simp only at hk
  have hsp := h.sp
  have hkl : k < sd.heads.len := by omega
  have hpl := h.pl
  have hnd := ent_nodup h.nd k
  have hlen := length_le (ps := ps) k
  have hpos : ∀ k' x, x ∈ ent ps k' → 0 ≤ x := fun k' x hx => h.en _ (mem_ent.1 hx)
  have hother : ∀ k', k' ≠ k → e ∉ ent ps k' := fun k' hk' hh => hk' (key_unique h.nd hh hek)
  -- the common tail of the method
  have fin : ∀ (s2 : Side), s2.count = sd.count → s2.nexts.len = sd.nexts.len →
      s2.prevs.len = sd.nexts.len → s2.heads.len = sd.heads.len →
      (∀ x : Int, 0 ≤ x → x < sd.heads.len → s2.heads.get x = ((ent ps x).filter (· ≠ e)).headD (-1)) →
      (∀ k', Links s2.nexts s2.prevs ((ent ps k').filter (· ≠ e))) →
      (∀ x : Int, 0 ≤ x → x < sd.nexts.len → x ∉ ps.map (·.2) → s2.nexts.get x = -1) →
      ∃ sd', (do wrPrevs e (-1); wrNexts e (-1); addCount k (-1)) s2 = .ok () sd' ∧
        Inv sd' (ps.filter fun p => p.2 ≠ e) room span counted := by
    intro s2 q1 q2 q3 q4 q5 q6 q7
    have w1 : wrPrevs e (-1) s2 = .ok () { s2 with prevs := s2.prevs.set e (-1) } :=
      wr_ok _ _ ⟨he0, by omega⟩
    have w2 : wrNexts e (-1) { s2 with prevs := s2.prevs.set e (-1) } =
        .ok () { s2 with prevs := s2.prevs.set e (-1), nexts := s2.nexts.set e (-1) } :=
      wr_ok _ _ ⟨he0, by simp only; omega⟩
    rw [JM.bind_ok w1, JM.bind_ok w2,
      addCount_ok (sd := { s2 with prevs := s2.prevs.set e (-1), nexts := s2.nexts.set e (-1) })
        ⟨hk.1, by simp only; omega⟩ (by simpa [q1, q4] using h.ctLen)]
    refine ⟨_, rfl, ?_⟩
    refine { pl := by simp; omega, rm := ?_, sp := ?_, ks := ?_, en := ?_, nd := ?_, hd := ?_, lk := ?_,
             fr := ?_, ct := ?_ }
    · have := h.rm; simp only [Arr.len_set]; omega
    · simp only; omega
    · intro p hp; exact h.ks p (List.mem_filter.1 hp).1
    · intro p hp; exact h.en p (List.mem_filter.1 hp).1
    · exact h.nd.sublist (List.Sublist.map _ List.filter_sublist)
    · intro x h0 hx
      rw [ent_filter]
      exact q5 x h0 (by simp only at hx; omega)
    · intro k'
      rw [ent_filter]
      refine Links.congr (q6 k') (by simp) (fun x hx => hpos k' x (List.mem_filter.1 hx).1)
        (List.Nodup.filter _ (ent_nodup h.nd k')) ?_ ?_ ?_
      · intro x hx _
        refine Arr.get_set_ne _ _ ?_
        have := (List.mem_filter.1 hx).2
        simpa using this
      · intro x hx _
        refine Arr.get_set_ne _ _ ?_
        have := (List.mem_filter.1 (List.mem_of_mem_tail hx)).2
        simpa using this
      · intro x _ h1 h2; simp only [Arr.len_set] at h2; omega
    · intro x h0 hx hn
      simp only [Arr.len_set] at hx
      rw [Arr.get_set]
      split
      · rfl
      · rename_i hxe
        refine q7 x h0 (by omega) ?_
        intro hh
        apply hn
        rw [List.mem_map] at hh ⊢
        obtain ⟨p, hp, rfl⟩ := hh
        exact ⟨p, by rw [List.mem_filter]; exact ⟨hp, by simpa using hxe⟩, rfl⟩
    · rcases h.ct with ⟨p1, p2⟩ | ⟨p1, c, p2, p3, p4⟩
      · left; exact ⟨p1, by simp [q1, p2]⟩
      · right
        refine ⟨p1, c.set k (i32 (c.get k + -1)), by simp [q1, p2], by simp [q4, p3], ?_⟩
        intro x hx0 hx
        simp only at hx
        rw [Arr.get_set, ent_filter]
        by_cases hxk : x = k
        · subst hxk
          rw [if_pos rfl, p4 x hx0 (by omega), i32_of_range (by omega)]
          have hce : ((ent ps x).filter (· ≠ e)).length + 1 = (ent ps x).length := by
            have h1 := List.Nodup.erase_eq_filter hnd e
            have h2 := List.length_erase_of_mem hek
            have h3 := List.length_pos_of_mem hek
            rw [show (ent ps x).filter (· ≠ e) = (ent ps x).erase e by
              rw [h1]; apply List.filter_congr; intro y _; by_cases hy : y = e <;> simp [hy]]
            omega
          omega
        · rw [if_neg hxk, filter_ne_of_notMem (hother x hxk)]
          exact p4 x hx0 (by omega)
  unfold removeEntry
  rw [JM.bind_ok (rd_ok _ ⟨hk.1, hkl⟩), h.hd k hk.1 hkl]
  rcases split_at hek with ⟨t, ht⟩ | ⟨pre, q, post, hs⟩
  · -- the entry is the head
    rw [ht]
    rw [if_pos (show (e :: t).headD (-1) = e from rfl)]
    have hnx := Links.next (by have := h.lk k; rwa [ht] at this) hel
    have het : e ∉ t := by rw [ht] at hnd; exact (List.nodup_cons.1 hnd).1
    have hft : (ent ps k).filter (· ≠ e) = t := by
      rw [ht, List.filter_cons, if_neg (by simp), filter_ne_of_notMem het]
    have w1 : wrHeads k (t.headD (-1)) sd = .ok () { sd with heads := sd.heads.set k (t.headD (-1)) } :=
      wr_ok _ _ ⟨hk.1, hkl⟩
    rw [JM.bind_ok (rd_ok _ ⟨he0, hel⟩), hnx, JM.bind_ok w1]
    refine fin _ rfl rfl hpl rfl ?_ ?_ h.fr
    · intro x hx0 hx
      rw [Arr.get_set]
      by_cases hxk : x = k
      · subst hxk; rw [if_pos rfl, hft]
      · rw [if_neg hxk, filter_ne_of_notMem (hother x hxk)]; exact h.hd x hx0 hx
    · intro k'
      by_cases hkk : k' = k
      · subst hkk; rw [hft]
        have := h.lk k'
        rw [ht] at this; exact Links.tail this
      · rw [filter_ne_of_notMem (hother k' hkk)]; exact h.lk k'
  · -- it has a predecessor
    have hlk := h.lk k
    rw [hs] at hlk hnd
    have hprev := Links.prev pre hlk
    have hnx : sd.nexts.get e = post.headD (-1) := by
      refine Links.next (l := post) (p := sd.prevs) ?_ hel
      have : pre ++ q :: e :: post = (pre ++ [q]) ++ (e :: post) := by simp
      rw [this] at hlk; exact Links.append hlk
    have hall : ∀ x ∈ ent ps k, x < sd.nexts.len := Links.bound (h.lk k) (by rw [hs]; simp; omega)
    have hq0 : 0 ≤ q := hpos k q (by rw [hs]; simp)
    have hql : q < sd.nexts.len := hall q (by rw [hs]; simp)
    obtain ⟨nd1, nd2, nd3⟩ := List.nodup_append.1 hnd
    simp only [List.nodup_cons, List.mem_cons, not_or] at nd2
    obtain ⟨⟨n1, n2⟩, n3, n4⟩ := nd2
    have hepre : e ∉ pre := fun hh => nd3 e hh e (by simp) rfl
    have hqpre : q ∉ pre := fun hh => nd3 q hh q (by simp) rfl
    have hppre : ∀ x ∈ post, x ∉ pre := fun x hx hh => nd3 x hh x (by simp [hx]) rfl
    have hhe : (ent ps k).headD (-1) ≠ e := by
      rw [hs]
      cases pre with
      | nil => exact n1
      | cons a pre => simp only [List.cons_append, List.headD_cons]; rintro rfl; simp at hepre
    have hft : (ent ps k).filter (· ≠ e) = pre ++ q :: post := by
      rw [hs, List.filter_append, filter_ne_of_notMem hepre, List.filter_cons, if_pos (by simpa using n1),
        List.filter_cons, if_neg (by simp), filter_ne_of_notMem n3]
    rw [if_neg hhe]
    have w1 : wrNexts q (post.headD (-1)) sd =
        .ok () { sd with nexts := sd.nexts.set q (post.headD (-1)) } := wr_ok _ _ ⟨hq0, hql⟩
    -- what the two assignments do
    have w2 : ∃ p', p'.len = sd.prevs.len ∧
        (JM.when (post.headD (-1) ≠ -1) (wrPrevs (post.headD (-1)) q) : JM Side Unit)
          { sd with nexts := sd.nexts.set q (post.headD (-1)) } =
          .ok () { sd with nexts := sd.nexts.set q (post.headD (-1)), prevs := p' } ∧
        (∀ x t, post = x :: t → p'.get x = q) ∧
        (∀ x : Int, (∀ y t, post = y :: t → x ≠ y) → p'.get x = sd.prevs.get x) := by
      cases post with
      | nil =>
        refine ⟨sd.prevs, rfl, ?_, ?_, ?_⟩
        · rw [JM.when_neg (by simp)]; rfl
        · intro x t hh; simp at hh
        · intro x _; rfl
      | cons y t =>
        have hy : y ∈ ent ps k := by rw [hs]; simp
        have hy0 := hpos k y hy
        have hyl := hall y hy
        refine ⟨sd.prevs.set y q, rfl, ?_, ?_, ?_⟩
        · rw [JM.when_pos (by simp; omega)]
          exact wr_ok _ _ ⟨hy0, by simp only [List.headD_cons]; omega⟩
        · intro x t' hh
          injection hh with h1 h2
          subst h1; simp
        · intro x hh
          exact Arr.get_set_ne _ _ (hh y t rfl)
    obtain ⟨p', hp1, hp2, hp3, hp4⟩ := w2
    rw [JM.bind_ok (rd_ok _ ⟨he0, by omega⟩), JM.bind_ok (rd_ok _ ⟨he0, hel⟩), hprev, hnx,
        JM.when_pos (by omega), JM.bind_ok w1, JM.bind_ok hp2]
    refine fin _ rfl rfl (by simp only; omega) rfl ?_ ?_ ?_
    · intro x hx0 hx
      by_cases hxk : x = k
      · subst hxk
        simp only
        rw [h.hd x hx0 hx, hft, hs]
        cases pre <;> rfl
      · rw [filter_ne_of_notMem (hother x hxk)]; exact h.hd x hx0 hx
    · intro k'
      by_cases hkk : k' = k
      · subst hkk
        rw [hft]
        refine Links.unlink (n := sd.nexts) (by simp) (by simp) hp3 pre hlk hnd ?_ ?_ ?_
        · intro x hx; exact hpos k' x (by rw [hs]; exact hx)
        · intro x _ hxq _; exact Arr.get_set_ne _ _ hxq
        · intro x _ _ hxy; exact hp4 x hxy
      · rw [filter_ne_of_notMem (hother k' hkk)]
        have hdis : ∀ x ∈ ent ps k', x ∉ ent ps k := fun x hx hh => hkk (key_unique h.nd hx hh)
        refine Links.congr (h.lk k') (by simp) (hpos k') (ent_nodup h.nd k') ?_ ?_ ?_
        · intro x hx _
          refine Arr.get_set_ne _ _ ?_
          rintro rfl
          exact hdis x hx (by rw [hs]; simp)
        · intro x hx _
          refine hp4 x ?_
          intro y t hy
          rintro rfl
          exact hdis x (List.mem_of_mem_tail hx) (by rw [hs, hy]; simp)
        · intro x _ h1 h2; simp only [Arr.len_set] at h2; omega
    · intro x h0 hx hn
      simp only
      rw [Arr.get_set_ne]
      · exact h.fr x h0 hx hn
      · rintro rfl
        exact hn ((ent_sub k).subset (by rw [hs]; simp))

end Side
end Verif
