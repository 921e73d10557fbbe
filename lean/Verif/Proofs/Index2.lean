import Verif.Proofs.Index1
/-! Proofs about the indexed map, part 2: removal. -/
set_option linter.unusedSectionVars false
namespace Verif
namespace Index
open IndexSpec
variable {K V : Type} [Inhabited K] [Inhabited V]

theorem perm_filter_ne {l : List Int} {e : Int} (hn : l.Nodup) (he : e ∈ l) :
    l.Perm (e :: l.filter (· ≠ e)) := by
  have h1 := List.perm_cons_erase he
  rw [List.Nodup.erase_eq_filter hn] at h1
  refine h1.trans (List.Perm.of_eq ?_)
  congr 1
  apply List.filter_congr
  intro x _
  simp [bne, BEq.beq]

theorem live_drop (a : Abs K V) (e : Int) : (a.drop e).live = a.live.filter (· ≠ e) := by
  simp only [Abs.live, Abs.drop, List.filter_map]
  rfl

theorem mem_drop {a : Abs K V} {e : Int} {r : Row K V} :
    r ∈ (a.drop e).rows ↔ r ∈ a.rows ∧ r.entry ≠ e := by
  simp [Abs.drop]

theorem length_drop {tight : Prop} {s : Index K V} {a : Abs K V} {F : List Int}
    (h : Inv tight s a F) {e : Int} (he : e ∈ a.live) :
    ((a.drop e).rows.length : Int) = a.rows.length - 1 := by
  have h1 := (perm_filter_ne h.live_nodup he).length_eq
  rw [← live_drop] at h1
  simp only [Abs.live, List.length_map, List.length_cons] at h1
  omega

/-- The links between entries outside `D` are the same in both states. -/
def Pres (s s' : Index K V) (D : List Int) : Prop :=
  s'.heads.len = s.heads.len ∧ s'.nexts.len = s.nexts.len ∧
  (∀ i, s.heads.get i ∉ D → s'.heads.get i = s.heads.get i) ∧
  (∀ x, x ∉ D → s.nexts.get x ∉ D → s'.nexts.get x = s.nexts.get x)

theorem Pres.refl (s : Index K V) (D : List Int) : Pres s s D :=
  ⟨rfl, rfl, fun _ _ => rfl, fun _ _ _ => rfl⟩

theorem Pres.cons {s s' s'' : Index K V} {e : Int} {D : List Int} (h : Pres s s' [e])
    (h' : Pres s' s'' D) : Pres s s'' (e :: D) := by
  obtain ⟨h1, h2, h3, h4⟩ := h
  obtain ⟨g1, g2, g3, g4⟩ := h'
  refine ⟨by omega, by omega, ?_, ?_⟩
  · intro i hi
    simp only [List.mem_cons, not_or] at hi
    have := h3 i (by simp [hi.1])
    rw [g3 i (by rw [this]; exact hi.2), this]
  · intro x hx hi
    simp only [List.mem_cons, not_or] at hi hx
    have := h4 x (by simp [hx.1]) (by simp [hi.1])
    rw [g4 x hx.2 (by rw [this]; exact hi.2), this]

theorem Pres.path {s s' : Index K V} {D : List Int} (h : Pres s s' D) (hD : ∀ d ∈ D, 0 ≤ d) :
    ∀ {x : Int} {l : List Int} {t : Int}, Path s.nexts x l t → (∀ y ∈ l, y ∉ D) → Path s'.nexts x l t
  | x, [], t, hp, _ => hp
  | x, y :: l, t, hp, hd => by
    obtain ⟨rfl, h0, h1, h2⟩ := hp
    have hn : s.nexts.get x ∉ D := by
      intro hh
      obtain ⟨l', hl', _⟩ := h2.nonneg_cons (hD _ hh)
      exact hd (s.nexts.get x) (by simp [hl']) hh
    refine ⟨rfl, h0, by have := h.2.1; omega, ?_⟩
    rw [h.2.2.2 x (hd x (by simp)) hn]
    exact h.path hD h2 (fun y hy => hd y (by simp [hy]))

theorem unlink_spec {s : Index K V} {hd : Int → Int} {S : List Int} {i e : Int} {l1 l2 : List Int}
    {t : Int} (hch : Chained s.heads s.nexts hd S) (hi0 : 0 ≤ i) (hi1 : i < s.heads.len)
    (hp : Path s.nexts (s.heads.get i) (l1 ++ e :: l2) t)
    (hends : ∀ x : Int, 0 ≤ x → x < s.nexts.len → Ends s.nexts s.heads.len x) :
    ∃ h n, unlink i (l1.getLastD (-1)) (s.nexts.get e) s = .ok () { s with heads := h, nexts := n } ∧
      h.len = s.heads.len ∧ n.len = s.nexts.len ∧ Chained h n hd (S.filter (· ≠ e)) ∧
      (∀ x, x ∉ S → n.get x = s.nexts.get x) ∧
      (∀ x : Int, 0 ≤ x → x < n.len → Ends n h.len x) ∧
      (∀ j, s.heads.get j ≠ e → h.get j = s.heads.get j) ∧
      (∀ x, s.nexts.get x ≠ e → n.get x = s.nexts.get x) ∧
      Path n (h.get i) (l1 ++ l2) t := by
  rcases List.eq_nil_or_concat l1 with rfl | ⟨l', p, rfl⟩
  · refine ⟨s.heads.set i (s.nexts.get e), s.nexts, ?_, rfl, rfl, hch.unlink_first hi0 hi1 hp,
      fun _ _ => rfl, hends, ?_, fun _ _ => rfl, ?_⟩
    rotate_left
    · intro j hj
      apply Arr.get_set_ne
      rintro rfl
      exact hj hp.1
    · rw [Arr.get_set_self]; exact hp.2.2.2
    unfold unlink
    rw [if_pos (by decide)]
    exact wr_ok _ _ ⟨hi0, hi1⟩
  · simp only [List.concat_eq_append] at hp ⊢
    have hp' : Path s.nexts (s.heads.get i) (l' ++ p :: e :: l2) t := by simpa using hp
    obtain ⟨p0, p1, hp2⟩ := hp'.split
    have hnd := hp'.nodup
    refine ⟨s.heads, s.nexts.set p (s.nexts.get e), ?_, rfl, rfl, hch.unlink_inner hi0 hi1 hp', ?_, ?_,
      fun _ _ => rfl, ?_, ?_⟩
    rotate_right
    · rw [List.append_assoc]
      refine Path.relink hp' (hp2.2.2.2.set_notin ?_) ?_
      · rw [List.nodup_append] at hnd
        have := hnd.2.1
        simp only [List.nodup_cons, List.mem_cons, not_or] at this
        exact this.1.2
      · rw [List.nodup_append] at hnd
        exact fun hh => hnd.2.2 p hh p (by simp) rfl
    · have : (l' ++ [p]).getLastD (-1) = p := by simp
      rw [this]
      unfold unlink
      rw [if_neg (by omega)]
      exact wr_ok _ _ ⟨p0, p1⟩
    · intro x hx
      apply Arr.get_set_ne
      rintro rfl
      obtain ⟨l, t', hp3, _, hm⟩ := hch i hi0 hi1
      obtain ⟨rfl, _⟩ := hp'.unique hp3
      exact hx ((hm x).1 (by simp)).1
    · have ht : -(s.heads.len : Int) ≤ t := by
        obtain ⟨l, t', hp3, ht, hm⟩ := hch i hi0 hi1
        obtain ⟨rfl, rfl⟩ := hp'.unique hp3
        have := ht (by simp)
        omega
      have hpn : p ∉ l2 := by
        rw [List.nodup_append] at hnd
        have := hnd.2.1
        simp only [List.nodup_cons, List.mem_cons, not_or] at this
        exact this.1.2
      intro x h0 h1
      refine Ends.set (Nat.le_refl _) ?_ (hends x h0 (by simpa using h1))
      refine Ends.cons p0 (by simpa using p1) ?_
      rw [Arr.get_set_self]
      exact Ends.path (hp2.2.2.2.set_notin hpn) ht
    · intro x hx
      apply Arr.get_set_ne
      rintro rfl
      exact hx hp2.1

theorem freeReservedEntry_ok {s : Index K V} {e : Int} (h0 : 0 ≤ e) (h1 : e < s.nexts.len)
    (hk : s.keys.len = s.nexts.len) (hv : s.values.len = s.nexts.len) :
    freeReservedEntry e s = .ok () { s with
      nexts := s.nexts.set e s.freeList, freeList := e,
      keys := s.keys.set e default, values := s.values.set e default } := by
  unfold freeReservedEntry
  rw [JM.bind_ok (JM.get_apply _), JM.bind_ok (wr_ok _ _ ⟨h0, h1⟩), JM.bind_ok (JM.modify_apply _ _),
    JM.bind_ok (wr_ok _ _ ⟨h0, by simp only; omega⟩)]
  exact wr_ok Index.values (fun t a => { t with values := a })
    ⟨h0, (by omega : e < (s.values.len : Int))⟩

/-- The state after an entry has been unlinked (`h`, `n`) and freed. -/
def freed (s : Index K V) (h n : Arr Int) (e : Int) : Index K V :=
  { s with
    heads := h, nexts := n.set e s.freeList, freeList := e
    keys := s.keys.set e default, values := s.values.set e default
    size := s.size - 1, modificationCount := i32 (s.modificationCount + 1) }

/-- The key stays when an iterator removes. -/
def freedKeep (s : Index K V) (h n : Arr Int) (e : Int) : Index K V :=
  { s with
    heads := h, nexts := n.set e s.freeList, freeList := e
    values := s.values.set e default
    size := s.size - 1, modificationCount := i32 (s.modificationCount + 1) }

/-- The state after an entry has been unlinked (`h`, `n`) and reserved. -/
def reservedAt (s : Index K V) (h n : Arr Int) (e : Int) : Index K V :=
  { s with
    heads := h, nexts := n.set e (-1)
    size := s.size - 1, modificationCount := i32 (s.modificationCount + 1) }

theorem pres_set {s s' : Index K V} {h n : Arr Int} {e v : Int} (hl : h.len = s.heads.len)
    (nl : n.len = s.nexts.len) (hfh : ∀ j, s.heads.get j ≠ e → h.get j = s.heads.get j)
    (hfn : ∀ x, s.nexts.get x ≠ e → n.get x = s.nexts.get x)
    (e1 : s'.heads = h := by rfl) (e2 : s'.nexts = n.set e v := by rfl) : Pres s s' [e] := by
  refine ⟨by rw [e1, hl], by rw [e2]; simpa using nl, ?_, ?_⟩
  · intro i hi
    rw [e1]; exact hfh i (by simpa using hi)
  · intro x hx hi
    rw [e2, Arr.get_set_ne _ _ (by simpa using hx)]
    exact hfn x (by simpa using hi)

theorem pres_freed {s : Index K V} {h n : Arr Int} {e : Int} (hl : h.len = s.heads.len)
    (nl : n.len = s.nexts.len) (hfh : ∀ j, s.heads.get j ≠ e → h.get j = s.heads.get j)
    (hfn : ∀ x, s.nexts.get x ≠ e → n.get x = s.nexts.get x) : Pres s (freed s h n e) [e] :=
  pres_set hl nl hfh hfn

/-- Dropping a live entry to the free list keeps the invariant; the key cell may hold anything. -/
theorem inv_freed {tight : Prop} {s : Index K V} {a : Abs K V} {F : List Int}
    (hI : Inv tight s a F) {e : Int} (he : e ∈ a.live) {h n : Arr Int}
    (hl : h.len = s.heads.len) (nl : n.len = s.nexts.len)
    (hch : Chained h n (hdAt s) (a.live.filter (· ≠ e)))
    (hget : ∀ x, x ∉ a.live → n.get x = s.nexts.get x)
    (hends : ∀ x : Int, 0 ≤ x → x < n.len → Ends n h.len x) (kk : K) (md : Int) :
    Inv tight { s with
      heads := h, nexts := n.set e s.freeList, freeList := e
      keys := s.keys.set e kk, values := s.values.set e default
      size := s.size - 1, modificationCount := md }
      { a.drop e with free := e :: a.free } (e :: F) := by
  have hr := hI.live_range he
  have heF : e ∉ F := fun hh => hI.live_free he (hI.freeSub e hh)
  have hhd : ∀ x, x ≠ e → headOf s.hashFunc h.len ((s.keys.set e kk).get x) = hdAt s x := by
    intro x hx
    unfold hdAt
    rw [Arr.get_set_ne _ _ hx, hl]
  have hpath : Path n s.freeList F (-1) := by
    refine hI.free.congr (by omega) ?_
    intro x hx
    exact hget x (fun hl => hI.live_free hl (hI.freeSub x hx))
  refine { cap := hI.cap, nlen := ?_, klen := hI.klen, vlen := hI.vlen, hlen := ?_, lf := hI.lf,
           thr := hI.thr, size := ?_, next := hI.next, next0 := hI.next0, perm := ?_,
           rowsOk := ?_, distinct := ?_, coherent := ?_, hash := hI.hash, eq := hI.eq,
           chained := ?_, maxHead := ?_, free := ?_, freeSub := ?_, leak := ?_, room := hI.room,
           tight := ?_, ends := ?_ }
  · simp only [Arr.len_set, nl]; exact hI.nlen
  · rw [hl]; exact hI.hlen
  · simp only [length_drop hI he, hI.size]
  · have h1 := perm_filter_ne hI.live_nodup he
    rw [← live_drop] at h1
    refine List.Perm.trans ?_ hI.perm
    show ((a.drop e).live ++ a.held ++ e :: a.free).Perm _
    refine List.perm_middle.trans ?_
    rw [← List.cons_append, ← List.cons_append]
    exact (h1.symm.append_right _).append_right _
  · intro r hr
    have h1 : r ∈ a.rows ∨ r ∈ a.reserved := by
      rcases hr with hr | hr
      · exact .inl (mem_drop.1 hr).1
      · exact .inr hr
    have hne : r.entry ≠ e := by
      rcases hr with hr | hr
      · exact (mem_drop.1 hr).2
      · rintro rfl
        exact hI.live_held he (List.mem_map_of_mem hr)
    simp only [Arr.get_set_ne _ _ hne]
    exact hI.rowsOk r h1
  · exact hI.distinct.filter _
  · intro hne
    refine hI.coherent ?_
    rintro h0
    exact hne (by simp [Abs.drop, h0])
  · have h2 : Chained h (n.set e s.freeList) (hdAt s) (a.live.filter (· ≠ e)) :=
      hch.set_notin (by simp)
    refine h2.congr ?_ ?_
    · intro x
      show x ∈ (a.drop e).live ↔ _
      rw [live_drop]
    · intro x hx
      exact hhd x (by simp at hx; exact hx.2)
  · refine ⟨hI.maxHead.1, ?_⟩
    intro x hx
    have hx' : x ∈ (a.drop e).live := hx
    rw [live_drop] at hx'
    simp only [List.mem_filter, decide_eq_true_eq] at hx'
    show headOf s.hashFunc h.len ((s.keys.set e kk).get x) ≤ s.maxHead
    rw [hhd x hx'.2]
    exact hI.maxHead.2 x hx'.1
  · refine ⟨rfl, hr.1, by simp only [Arr.len_set]; omega, ?_⟩
    rw [Arr.get_set_self]
    exact hpath.set_notin heF
  · intro x hx
    rcases List.mem_cons.1 hx with rfl | hx
    · simp
    · exact List.mem_cons_of_mem _ (hI.freeSub x hx)
  · intro x hx
    rcases List.mem_cons.1 hx with rfl | hx
    · simp
    · rcases hI.leak x hx with h1 | h1
      · exact .inl (List.mem_cons_of_mem _ h1)
      · exact .inr h1
  · intro ht
    obtain ⟨h1, h2, h3⟩ := hI.tight ht
    exact ⟨h1, h2, by rw [h3]⟩
  · intro x h0 h1
    simp only [Arr.len_set] at h1
    refine Ends.set (Nat.le_refl _) ?_ (hends x h0 h1)
    refine Ends.cons hr.1 (by simp only [Arr.len_set]; omega) ?_
    rw [Arr.get_set_self]
    refine Ends.path (hpath.set_notin heF) ?_
    have := hI.hlen.1
    show -(h.len : Int) ≤ -1
    omega

/-- Reserving a live entry keeps the invariant. -/
theorem inv_reserved {tight : Prop} {s : Index K V} {a : Abs K V} {F : List Int}
    (hI : Inv tight s a F) {e : Int} (he : e ∈ a.live) {h n : Arr Int}
    (hl : h.len = s.heads.len) (nl : n.len = s.nexts.len)
    (hch : Chained h n (hdAt s) (a.live.filter (· ≠ e)))
    (hget : ∀ x, x ∉ a.live → n.get x = s.nexts.get x)
    (hends : ∀ x : Int, 0 ≤ x → x < n.len → Ends n h.len x) :
    Inv tight (reservedAt s h n e)
      { a.drop e with reserved := (a.rows.filter fun r => r.entry = e) ++ a.reserved } F := by
  have hr := hI.live_range he
  have heF : e ∉ F := fun hh => hI.live_free he (hI.freeSub e hh)
  have hhd : ∀ x, headOf s.hashFunc h.len (s.keys.get x) = hdAt s x := by
    intro x
    unfold hdAt
    rw [hl]
  have hpath : Path n s.freeList F (-1) := by
    refine hI.free.congr (by omega) ?_
    intro x hx
    exact hget x (fun hl => hI.live_free hl (hI.freeSub x hx))
  have hlive : ({ a.drop e with reserved := (a.rows.filter fun r => r.entry = e) ++ a.reserved } :
      Abs K V).live = (a.drop e).live := rfl
  refine { cap := hI.cap, nlen := ?_, klen := hI.klen, vlen := hI.vlen, hlen := ?_, lf := hI.lf,
           thr := hI.thr, size := ?_, next := hI.next, next0 := hI.next0, perm := ?_,
           rowsOk := ?_, distinct := ?_, coherent := ?_, hash := hI.hash, eq := hI.eq,
           chained := ?_, maxHead := ?_, free := ?_, freeSub := hI.freeSub, leak := hI.leak,
           room := hI.room, tight := hI.tight, ends := ?_ }
  · simp only [reservedAt, Arr.len_set, nl]; exact hI.nlen
  · simp only [reservedAt]; rw [hl]; exact hI.hlen
  · simp only [reservedAt, length_drop hI he, hI.size]
  · refine List.Perm.trans ?_ hI.perm
    refine List.Perm.append_right _ ?_
    simp only [Abs.live, Abs.held, Abs.drop, List.map_append]
    rw [← List.append_assoc]
    refine List.Perm.append_right _ ?_
    rw [← List.map_append]
    refine List.Perm.map _ ?_
    have := List.filter_append_perm (fun r : Row K V => decide (r.entry = e)) a.rows
    refine (List.perm_append_comm.trans ?_).trans this
    refine List.Perm.append_left _ (List.Perm.of_eq ?_)
    apply List.filter_congr
    intro x _
    simp
  · intro r hr
    have h1 : r ∈ a.rows ∨ r ∈ a.reserved := by
      rcases hr with hr | hr
      · exact .inl (mem_drop.1 hr).1
      · rcases List.mem_append.1 hr with hr | hr
        · exact .inl (List.mem_filter.1 hr).1
        · exact .inr hr
    exact hI.rowsOk r h1
  · exact hI.distinct.filter _
  · intro hne
    refine hI.coherent ?_
    rintro h0
    exact hne (by simp [Abs.drop, h0])
  · have h2 : Chained h (n.set e (-1)) (hdAt s) (a.live.filter (· ≠ e)) :=
      hch.set_notin (by simp)
    refine h2.congr ?_ ?_
    · intro x
      rw [hlive, live_drop]
    · intro x hx
      exact hhd x
  · refine ⟨hI.maxHead.1, ?_⟩
    intro x hx
    rw [hlive, live_drop] at hx
    simp only [List.mem_filter, decide_eq_true_eq] at hx
    show headOf s.hashFunc h.len (s.keys.get x) ≤ s.maxHead
    rw [hhd x]
    exact hI.maxHead.2 x hx.1
  · exact hpath.set_notin heF
  · intro x h0 h1
    simp only [reservedAt, Arr.len_set] at h1
    refine Ends.set (Nat.le_refl _) ?_ (hends x h0 h1)
    refine Ends.cons hr.1 (by simp only [Arr.len_set]; omega) ?_
    rw [Arr.get_set_self]
    refine Ends.of_neg (by decide) ?_
    have := hI.hlen.1
    simp only [reservedAt]
    omega

/-- Freeing a reserved entry keeps the invariant. -/
theorem freeReserved_spec {tight : Prop} {s : Index K V} {a : Abs K V} {F : List Int}
    (hI : Inv tight s a F) {e : Int} (he : e ∈ a.held) :
    ∃ s', freeReservedEntry e s = .ok () s' ∧
    Inv tight s' { a with reserved := a.reserved.filter (fun r => r.entry ≠ e), free := e :: a.free }
      (e :: F) ∧ s'.modificationCount = s.modificationCount := by
  have hr := hI.held_range he
  refine ⟨_, freeReservedEntry_ok hr.1 hr.2 (klen_eq hI) (vlen_eq hI), ?_, rfl⟩
  have heF : e ∉ F := fun hh => hI.held_free he (hI.freeSub e hh)
  have heL : e ∉ a.live := fun hh => hI.live_held hh he
  have hhd : ∀ x, x ≠ e → headOf s.hashFunc s.heads.len ((s.keys.set e default).get x) = hdAt s x := by
    intro x hx
    unfold hdAt
    rw [Arr.get_set_ne _ _ hx]
  have hheld : ({ a with reserved := a.reserved.filter (fun r => r.entry ≠ e), free := e :: a.free } :
      Abs K V).held = a.held.filter (· ≠ e) := by
    simp only [Abs.held, List.filter_map]; rfl
  refine { cap := hI.cap, nlen := hI.nlen, klen := hI.klen, vlen := hI.vlen, hlen := hI.hlen,
           lf := hI.lf,
           thr := hI.thr, size := hI.size, next := hI.next, next0 := hI.next0, perm := ?_,
           rowsOk := ?_, distinct := hI.distinct, coherent := hI.coherent, hash := hI.hash, eq := hI.eq,
           chained := ?_, maxHead := ?_, free := ?_, freeSub := ?_, leak := ?_, room := hI.room,
           tight := ?_, ends := ?_ }
  · have h1 := perm_filter_ne hI.held_nodup he
    refine List.Perm.trans ?_ hI.perm
    rw [hheld]
    show (a.live ++ a.held.filter (· ≠ e) ++ e :: a.free).Perm _
    refine List.perm_middle.trans ?_
    rw [List.append_assoc, List.append_assoc, ← List.cons_append]
    refine (List.perm_middle (l₁ := a.live)).symm.trans ?_ |>.trans
      (List.Perm.of_eq rfl)
    refine List.Perm.append_left _ ?_
    rw [← List.cons_append]
    exact h1.symm.append_right _
  · intro r hr
    have h1 : r ∈ a.rows ∨ r ∈ a.reserved := by
      rcases hr with hr | hr
      · exact .inl hr
      · exact .inr (List.mem_filter.1 hr).1
    have hne : r.entry ≠ e := by
      rcases hr with hr | hr
      · rintro rfl; exact heL (mem_live hr)
      · simpa using (List.mem_filter.1 hr).2
    simp only [Arr.get_set_ne _ _ hne]
    exact hI.rowsOk r h1
  · refine (hI.chained.set_notin (v := s.freeList) heL).congr (fun _ => Iff.rfl) ?_
    intro x hx
    exact hhd x (fun hh => heL (hh ▸ hx))
  · refine ⟨hI.maxHead.1, ?_⟩
    intro x hx
    show headOf s.hashFunc s.heads.len ((s.keys.set e default).get x) ≤ s.maxHead
    rw [hhd x (fun hh => heL (hh ▸ hx))]
    exact hI.maxHead.2 x hx
  · refine ⟨rfl, hr.1, hr.2, ?_⟩
    rw [Arr.get_set_self]
    exact hI.free.set_notin heF
  · intro x hx
    rcases List.mem_cons.1 hx with rfl | hx
    · simp
    · exact List.mem_cons_of_mem _ (hI.freeSub x hx)
  · intro x hx
    rcases List.mem_cons.1 hx with rfl | hx
    · simp
    · rcases hI.leak x hx with h1 | h1
      · exact .inl (List.mem_cons_of_mem _ h1)
      · exact .inr h1
  · intro ht
    obtain ⟨h1, h2, h3⟩ := hI.tight ht
    exact ⟨h1, h2, by rw [h3]⟩
  · intro x h0 h1
    simp only [Arr.len_set] at h1
    refine Ends.set (Nat.le_refl _) ?_ (hI.ends x h0 h1)
    refine Ends.cons hr.1 (by simp only [Arr.len_set]; omega) ?_
    rw [Arr.get_set_self]
    refine Ends.path (hI.free.set_notin heF) ?_
    have := hI.hlen.1
    show -(s.heads.len : Int) ≤ -1
    omega

/-- `removeAt` of a live entry. -/
theorem removeAt_live {tight : Prop} {s : Index K V} {a : Abs K V} {F : List Int}
    (hI : Inv tight s a F) {e : Int} (he : e ∈ a.live) :
    ∃ s', removeAt e s = .ok () s' ∧
      Inv tight s' { a.drop e with free := e :: a.free } (e :: F) ∧
      s'.modificationCount = i32 (s.modificationCount + 1) ∧ Pres s s' [e] := by
  have hr := hI.live_range he
  have hdr : 0 ≤ hdAt s e ∧ hdAt s e < s.heads.len := hI.hd_range (s.keys.get e)
  obtain ⟨l, t, hp, ht, hel⟩ := hI.chained.chain_of he hdr.1 hdr.2
  obtain ⟨l1, l2, hl, hsuf⟩ := hp.suffix hel
  have hnd := hp.nodup
  rw [hl] at hp hnd
  have he1 : e ∉ l1 := by
    rw [List.nodup_append] at hnd
    exact fun hh => hnd.2.2 e hh e (by simp) rfl
  have hlen1 := hp.length_le
  have hlen2 := hsuf.length_le
  simp only [List.length_append, List.length_cons] at hlen1 hlen2
  obtain ⟨h, n, hu, hl', nl, hch, hget, hends, hfh, hfn, _⟩ :=
    unlink_spec hI.chained hdr.1 hdr.2 hp hI.ends
  have hgh : getHeadLoop (s.nexts.len + 1) e s = .ok (hdAt s e) s := by
    rw [getHeadLoop_spec s _ e _ t hsuf (by simp only [List.length_cons]; omega), ht]
    congr 1; omega
  refine ⟨freed s h n e, ?_, inv_freed hI he hl' nl hch hget hends default _, rfl,
    pres_freed hl' nl hfh hfn⟩
  unfold removeAt
  rw [JM.bind_ok (JM.get_apply _), JM.bind_ok hgh, JM.bind_ok (rd_ok _ hdr),
    JM.bind_ok (findEntryLoop_some e s _ (-1) _ l1 l2 t hp (by omega) he1)]
  simp only
  rw [JM.bind_ok (rd_ok _ hr), JM.bind_ok hu,
    JM.bind_ok (freeReservedEntry_ok hr.1 (by simp only; omega) (by simp only; rw [nl]; exact klen_eq hI)
      (by simp only; rw [nl]; exact vlen_eq hI)),
    JM.bind_ok (JM.modify_apply _ _)]
  rfl

/-- `removeAt` of anything else does nothing. -/
theorem removeAt_other {tight : Prop} {s : Index K V} {a : Abs K V} {F : List Int}
    (hI : Inv tight s a F) {e : Int} (he : e ∉ a.live) :
    removeAt e s = .ok () s ∨ removeAt e s = .err .indexOutOfBounds s := by
  unfold removeAt
  rw [JM.bind_ok (JM.get_apply _)]
  -- the head that the walk from `e` reaches
  have hgh : (∃ i, 0 ≤ i ∧ getHeadLoop (s.nexts.len + 1) e s = .ok i s) ∨
      getHeadLoop (s.nexts.len + 1) e s = .err .indexOutOfBounds s := by
    by_cases h0 : 0 ≤ e
    · by_cases h1 : e < s.nexts.len
      · obtain ⟨l, t, hp, ht⟩ := hI.ends e h0 h1
        have := hp.term_neg
        have := hp.length_le
        exact .inl ⟨-t - 1, by omega, getHeadLoop_spec s _ e l t hp (by omega)⟩
      · right
        rw [getHeadLoop, if_pos h0]
        apply JM.bind_err
        unfold rd
        simp only
        rw [if_neg (by omega)]
    · left
      refine ⟨-e - 1, by omega, ?_⟩
      rw [getHeadLoop, if_neg (by omega)]; rfl
  rcases hgh with ⟨i, hi0, hg⟩ | hg
  · rw [JM.bind_ok hg]
    by_cases hi1 : i < s.heads.len
    · left
      rw [JM.bind_ok (rd_ok _ ⟨hi0, hi1⟩)]
      obtain ⟨l, t, hp, _, hm⟩ := hI.chained i hi0 hi1
      have := hp.length_le
      rw [JM.bind_ok (findEntryLoop_none e s _ (-1) _ l t hp (by omega)
        (fun hh => he ((hm e).1 hh).1))]
      rfl
    · right
      apply JM.bind_err
      unfold rd
      simp only
      rw [if_neg (by omega)]
  · right
    exact JM.bind_err hg

/-- Within the bounds of the arrays it never throws. -/
theorem removeAt_inside {tight : Prop} {s : Index K V} {a : Abs K V} {F : List Int}
    (hI : Inv tight s a F) {e : Int} (he : e ∉ a.live) (h0 : 0 ≤ e) (h1 : e < s.nexts.len) :
    removeAt e s = .ok () s := by
  unfold removeAt
  rw [JM.bind_ok (JM.get_apply _)]
  obtain ⟨l, t, hp, ht⟩ := hI.ends e h0 h1
  have h2 := hp.term_neg
  have h3 := hp.length_le
  rw [JM.bind_ok (getHeadLoop_spec s _ e l t hp (by omega)),
    JM.bind_ok (rd_ok _ ⟨by omega, by omega⟩)]
  obtain ⟨l', t', hp', _, hm⟩ := hI.chained (-t - 1) (by omega) (by omega)
  have := hp'.length_le
  rw [JM.bind_ok (findEntryLoop_none e s _ (-1) _ l' t' hp' (by omega)
    (fun hh => he ((hm e).1 hh).1))]
  rfl

/-- `remove(key, free)` of an absent key. -/
theorem removeKey_absent {tight : Prop} {s : Index K V} {a : Abs K V} {F : List Int}
    (hI : Inv tight s a F) {k : K} (hk : a.find k = none) (free : Bool) :
    removeKey k free s = .ok (-1) s := by
  obtain ⟨l, t, hp, _, _, hh⟩ := find_chain hI k
  have hdr := hI.hd_range k
  rcases hh with ⟨_, h2⟩ | ⟨r, _, h1, _⟩
  · unfold removeKey
    have hc : computeHead k s = .ok (headOf s.hashFunc s.heads.len k) s := rfl
    have hl := hp.length_le
    rw [JM.bind_ok hc, JM.bind_ok (rd_ok _ hdr)]
    by_cases hneg : s.heads.get (headOf s.hashFunc s.heads.len k) < 0
    · rw [if_pos hneg]; rfl
    · rw [if_neg hneg, JM.bind_ok (JM.get_apply _),
        JM.bind_ok (findKeyLoop_none k s (klen_eq hI) _ _ _ l t hp (by omega) h2)]
      rfl
  · rw [h1] at hk; simp at hk

/-- `remove(key, free)` of a present key. -/
theorem removeKey_present {tight : Prop} {s : Index K V} {a : Abs K V} {F : List Int}
    (hI : Inv tight s a F) {k : K} {r : Row K V} (hk : a.find k = some r) (free : Bool) :
    ∃ s' F', removeKey k free s = .ok r.entry s' ∧
      Inv tight s' (if free then { a.drop r.entry with free := r.entry :: a.free }
        else { a.drop r.entry with
          reserved := (a.rows.filter fun x => x.entry = r.entry) ++ a.reserved }) F' ∧
      s'.modificationCount = i32 (s.modificationCount + 1) ∧ Pres s s' [r.entry] ∧
      (free = true → F' = r.entry :: F) := by
  obtain ⟨l, t, hp, ht, _, hh⟩ := find_chain hI k
  have hdr := hI.hd_range k
  rcases hh with ⟨h1, _⟩ | ⟨r', hr', h1, h2, h3, h4⟩
  · rw [h1] at hk; simp at hk
  · rw [h1] at hk
    simp only [Option.some.injEq] at hk
    subst hk
    obtain ⟨l1, l2, hl, hsuf⟩ := hp.suffix h3
    have hnd := hp.nodup
    rw [hl] at hp hnd
    have he1 : r'.entry ∉ l1 := by
      rw [List.nodup_append] at hnd
      exact fun hh => hnd.2.2 _ hh _ (by simp) rfl
    have he := mem_live hr'
    have hr := hI.live_range he
    have hlen1 := hp.length_le
    simp only [List.length_append, List.length_cons] at hlen1
    have hpos : ¬ s.heads.get (headOf s.hashFunc s.heads.len k) < 0 := by
      intro hneg
      have := (hp.neg_nil hneg).1
      simp at this
    have hkey : s.equalFunc k (s.keys.get r'.entry) = true := by
      rw [(hI.rowsOk r' (.inl hr')).1, hI.eq]; exact h2
    have hpre : ∀ x ∈ l1, s.equalFunc k (s.keys.get x) = false := fun x hx =>
      h4 x (by rw [hl]; simp [hx]) (fun hh => he1 (hh ▸ hx))
    obtain ⟨h, n, hu, hl', nl, hch, hget, hends, hfh, hfn, _⟩ :=
      unlink_spec hI.chained hdr.1 hdr.2 hp hI.ends
    have hc : computeHead k s = .ok (headOf s.hashFunc s.heads.len k) s := rfl
    have hstart : removeKey k free s = (do
        let next ← rd Index.nexts r'.entry
        unlink (headOf s.hashFunc s.heads.len k) (l1.getLastD (-1)) next
        if free then freeReservedEntry r'.entry else wrNexts r'.entry (-1)
        modify fun t => { t with size := t.size - 1 }
        bumpMod
        pure r'.entry : JM (Index K V) Int) s := by
      unfold removeKey
      rw [JM.bind_ok hc, JM.bind_ok (rd_ok _ hdr), if_neg hpos, JM.bind_ok (JM.get_apply _),
        JM.bind_ok (findKeyLoop_some k r'.entry s (klen_eq hI) hkey _ (-1) _ l1 l2 t hp (by omega) hpre)]
    cases free with
    | true =>
      refine ⟨freed s h n r'.entry, r'.entry :: F, ?_, inv_freed hI he hl' nl hch hget hends default _,
        rfl, pres_freed hl' nl hfh hfn, fun _ => rfl⟩
      rw [hstart, JM.bind_ok (rd_ok _ hr), JM.bind_ok hu, if_pos rfl,
        JM.bind_ok (freeReservedEntry_ok hr.1 (by simp only; omega)
          (by simp only; rw [nl]; exact klen_eq hI) (by simp only; rw [nl]; exact vlen_eq hI)),
        JM.bind_ok (JM.modify_apply _ _)]
      rfl
    | false =>
      refine ⟨reservedAt s h n r'.entry, F, ?_, inv_reserved hI he hl' nl hch hget hends, rfl,
        pres_set hl' nl hfh hfn, by simp⟩
      rw [hstart, JM.bind_ok (rd_ok _ hr), JM.bind_ok hu, if_neg (by decide),
        JM.bind_ok (wr_ok _ _ ⟨hr.1, by simp only; omega⟩),
        JM.bind_ok (JM.modify_apply _ _)]
      rfl

end Index
end Verif
