import Verif.Spec.Bi
import Verif.Proofs.Hydra1
import Mathlib.Data.List.Nodup
/-! Proofs about the two-sided collections, part 1: one side. -/
set_option linter.unusedSectionVars false
namespace Verif
namespace Side

/-- The entries of a key in a list of (key, entry). -/
def ent (ps : List (Int × Int)) (k : Int) : List Int := (ps.filter fun p => p.1 = k).map (·.2)

/-- The cells of `nexts` and `prevs` describe this list. -/
def Links (nexts prevs : Arr Int) : List Int → Prop
  | [] => True
  | [e] => e < nexts.len → nexts.get e = -1
  | e :: e' :: l => e < nexts.len ∧ e' < nexts.len ∧ nexts.get e = e' ∧ prevs.get e' = e ∧
      Links nexts prevs (e' :: l)

structure Inv (sd : Side) (ps : List (Int × Int)) (room span : Int) (counted : Bool) : Prop where
  pl : sd.prevs.len = sd.nexts.len
  rm : room ≤ sd.nexts.len
  sp : span ≤ sd.heads.len
  ks : ∀ p ∈ ps, 0 ≤ p.1 ∧ p.1 < span
  en : ∀ p ∈ ps, 0 ≤ p.2
  nd : (ps.map (·.2)).Nodup
  hd : ∀ k : Int, 0 ≤ k → k < sd.heads.len → sd.heads.get k = (ent ps k).headD (-1)
  lk : ∀ k, Links sd.nexts sd.prevs (ent ps k)
  fr : ∀ e : Int, 0 ≤ e → e < sd.nexts.len → e ∉ ps.map (·.2) → sd.nexts.get e = -1
  ct : (counted = false ∧ sd.count = none) ∨
    (counted = true ∧ ∃ c, sd.count = some c ∧ c.len = sd.heads.len ∧
      ∀ k : Int, 0 ≤ k → k < sd.heads.len → c.get k = (ent ps k).length)

variable {sd : Side} {ps : List (Int × Int)} {room span : Int} {counted : Bool}

theorem mem_ent {k e : Int} : e ∈ ent ps k ↔ (k, e) ∈ ps := by
  unfold ent
  simp only [List.mem_map, List.mem_filter, decide_eq_true_eq]
  constructor
  · rintro ⟨⟨a, b⟩, ⟨h1, rfl⟩, rfl⟩; exact h1
  · intro h; exact ⟨(k, e), ⟨h, rfl⟩, rfl⟩

theorem ent_cons (p : Int × Int) (k : Int) :
    ent (p :: ps) k = if p.1 = k then p.2 :: ent ps k else ent ps k := by
  unfold ent
  by_cases h : p.1 = k <;> simp [h]

theorem ent_sub (k : Int) : (ent ps k).Sublist (ps.map (·.2)) := List.Sublist.map _ List.filter_sublist

theorem ent_nodup (h : (ps.map (·.2)).Nodup) (k : Int) : (ent ps k).Nodup := h.sublist (ent_sub k)

/-- Entries determine their key. -/
theorem key_unique (h : (ps.map (·.2)).Nodup) {k k' e : Int} (h1 : e ∈ ent ps k) (h2 : e ∈ ent ps k') :
    k = k' := by
  rw [mem_ent] at h1 h2
  have := List.inj_on_of_nodup_map h h1 h2 rfl
  exact (Prod.mk.inj this).1

theorem ent_filter (k e : Int) : ent (ps.filter fun p => p.2 ≠ e) k = (ent ps k).filter (· ≠ e) := by
  unfold ent
  rw [List.filter_filter, List.filter_map, List.filter_filter]
  congr 1
  apply List.filter_congr
  intro p _
  simp only [Function.comp, Bool.and_comm]

theorem Links.congr {n p n' p' : Arr Int} : ∀ {l : List Int}, Links n p l → n.len ≤ n'.len →
    (∀ e ∈ l, 0 ≤ e) → l.Nodup →
    (∀ e ∈ l, e < n.len → n'.get e = n.get e) → (∀ e ∈ l.tail, e < n.len → p'.get e = p.get e) →
    (∀ e ∈ l, n.len ≤ e → e < n'.len → n'.get e = -1) →
    Links n' p' l
  | [], _, _, _, _, _, _, _ => trivial
  | [e], h, hl, _, _, h1, _, h3 => by
    intro hh
    by_cases hc : e < n.len
    · rw [h1 e (by simp) hc]; exact h hc
    · exact h3 e (by simp) (by omega) hh
  | e :: e' :: l, h, hl, h0, hn, h1, h2, h3 => by
    obtain ⟨g1, g2, g3, g4, g5⟩ := h
    refine ⟨by omega, by omega, ?_, ?_, ?_⟩
    · rw [h1 e (by simp) g1]; exact g3
    · rw [h2 e' (by simp) g2]; exact g4
    · exact Links.congr g5 hl (fun x hx => h0 x (by simp [hx])) (List.nodup_cons.1 hn).2
        (fun x hx => h1 x (List.mem_cons_of_mem _ hx))
        (fun x hx => h2 x (by simp only [List.tail_cons] at hx ⊢; exact List.mem_cons_of_mem _ hx))
        (fun x hx => h3 x (List.mem_cons_of_mem _ hx))

/-- In a list of two or more all entries have cells. -/
theorem Links.bound {n p : Arr Int} : ∀ {l : List Int}, Links n p l → 2 ≤ l.length →
    ∀ e ∈ l, e < n.len
  | [], _, h, _, _ => by simp at h
  | [_], _, h, _, _ => by simp at h
  | [e, e'], h, _, x, hx => by
    simp only [List.mem_cons, List.not_mem_nil, or_false] at hx
    rcases hx with rfl | rfl
    · exact h.1
    · exact h.2.1
  | e :: e' :: e'' :: l, h, _, x, hx => by
    rcases List.mem_cons.1 hx with rfl | hx
    · exact h.1
    · exact Links.bound (l := e' :: e'' :: l) h.2.2.2.2 (by simp) x hx

theorem Links.next {n p : Arr Int} {e : Int} {l : List Int} (h : Links n p (e :: l)) (he : e < n.len) :
    n.get e = l.headD (-1) := by
  cases l with
  | nil => exact h he
  | cons a t => exact h.2.2.1

theorem Links.tail {n p : Arr Int} {e : Int} {l : List Int} (h : Links n p (e :: l)) : Links n p l := by
  cases l with
  | nil => trivial
  | cons a t => exact h.2.2.2.2

theorem Links.append {n p : Arr Int} : ∀ {l1 l2 : List Int}, Links n p (l1 ++ l2) → Links n p l2
  | [], _, h => h
  | _ :: l1, l2, h => Links.append (l1 := l1) (l2 := l2) (Links.tail h)

theorem covered_bound (h : Inv sd ps room span counted) {k e : Int}
    (hc : ∀ x, ent ps k = [x] → x < room) (he : e ∈ ent ps k) : e < sd.nexts.len := by
  have hb := Links.bound (h.lk k)
  have hr := h.rm
  rcases hl : ent ps k with _ | ⟨a, _ | ⟨b, t⟩⟩
  · rw [hl] at he; simp at he
  · rw [hl] at he
    have := hc a hl
    simp at he
    omega
  · exact hb (by rw [hl]; simp) e he

theorem length_le (k : Int) : (ent ps k).length ≤ ps.length := by
  have := (ent_sub (ps := ps) k).length_le
  simpa using this

theorem addCount_ok {key d : Int} (hk : 0 ≤ key ∧ key < sd.heads.len)
    (hct : sd.count = none ∨ ∃ c, sd.count = some c ∧ c.len = sd.heads.len) :
    addCount key d sd = .ok () { sd with
      count := sd.count.map fun c => c.set key (i32 (c.get key + d)) } := by
  unfold addCount
  rw [JM.bind_ok (JM.get_apply _)]
  rcases hct with hc | ⟨c, hc, hl⟩
  · rw [hc]; cases sd; simp at hc; subst hc; rfl
  · rw [hc]
    simp only
    rw [JM.bind_ok (rdA_ok c (by omega))]
    rfl

theorem Inv.ctLen (h : Inv sd ps room span counted) :
    sd.count = none ∨ ∃ c, sd.count = some c ∧ c.len = sd.heads.len := by
  rcases h.ct with ⟨_, h⟩ | ⟨_, c, h1, h2, _⟩
  · exact .inl h
  · exact .inr ⟨c, h1, h2⟩

theorem ent_ge (h : Inv sd ps room span counted) {k : Int} (hk : span ≤ k) : ent ps k = [] := by
  rw [List.eq_nil_iff_forall_not_mem]
  intro e he
  rw [mem_ent] at he
  have := h.ks _ he
  simp at this; omega

theorem ensureKey_ok (h : Inv sd ps room span counted) {k : Int} (hk : 0 ≤ k ∧ k < 1073741824) :
    ∃ sd', ensureKey k sd = .ok () sd' ∧ Inv sd' ps room (max span (k + 1)) counted ∧
      k < sd'.heads.len ∧ sd'.nexts = sd.nexts ∧ sd'.prevs = sd.prevs := by
  obtain ⟨r1, e1, g1, l1, k1, n1⟩ := Hydra.ensureEntry_ok sd.heads (-1) sd (i := k) (by omega)
  have hsp := h.sp
  have hhd : ∀ x : Int, 0 ≤ x → x < r1.len → r1.get x = (ent ps x).headD (-1) := by
    intro x hx0 hx
    by_cases hc : x < sd.heads.len
    · rw [k1 x hx0 hc, h.hd x hx0 hc]
    · rw [n1 x (by omega) hx, ent_ge h (by omega)]; rfl
  have hks : ∀ p ∈ ps, 0 ≤ p.1 ∧ p.1 < max span (k + 1) := fun p hp => by
    have := h.ks p hp; omega
  unfold ensureKey
  rw [JM.bind_ok (JM.get_apply _), JM.bind_ok e1, JM.bind_ok (JM.modify_apply _ _)]
  rcases h.ct with ⟨hc0, hc⟩ | ⟨hc0, c, hc, hcl, hcv⟩
  · rw [hc]
    refine ⟨{ sd with heads := r1, count := none }, rfl, ?_, g1, rfl, rfl⟩
    exact { h with sp := by simp only; omega, ks := hks, hd := hhd, ct := .inl ⟨hc0, rfl⟩ }
  · rw [hc]
    simp only
    obtain ⟨r2, e2, g2, l2, k2, n2⟩ :=
      Hydra.ensureEntry_ok c 0 { sd with heads := r1, count := some c } (i := k) (by omega)
    have hl := Hydra.ensureEntry_same hcl e2 e1
    rw [JM.bind_ok e2]
    refine ⟨{ sd with heads := r1, count := some r2 }, rfl, ?_, g1, rfl, rfl⟩
    refine { h with sp := by simp only; omega, ks := hks, hd := hhd, ct := .inr ⟨hc0, r2, rfl, hl, ?_⟩ }
    intro x hx0 hx
    simp only at hx
    by_cases hc : x < sd.heads.len
    · rw [k2 x hx0 (by omega), hcv x hx0 hc]
    · rw [n2 x (by omega) (by omega), ent_ge h (by omega)]; rfl

theorem ensureEntry_ok (h : Inv sd ps room span counted) {e : Int} (he : 0 ≤ e ∧ e < 1073741824) :
    ∃ sd', ensureEntry e sd = .ok () sd' ∧ Inv sd' ps (max room (e + 1)) span counted ∧
      e < sd'.nexts.len ∧ sd'.heads = sd.heads ∧ sd'.count = sd.count := by
  obtain ⟨r1, e1, g1, l1, k1, n1⟩ := Hydra.ensureEntry_ok sd.nexts (-1) sd (i := e) (by omega)
  obtain ⟨r2, e2, g2, l2, k2, n2⟩ :=
    Hydra.ensureEntry_ok sd.prevs (-1) { sd with nexts := r1 } (i := e) (by omega)
  have hl := Hydra.ensureEntry_same h.pl e2 e1
  have hpl := h.pl
  have hrm := h.rm
  unfold ensureEntry
  rw [JM.bind_ok (JM.get_apply _), JM.bind_ok e1, JM.bind_ok (JM.modify_apply _ _),
    JM.bind_ok e2]
  refine ⟨{ sd with nexts := r1, prevs := r2 }, rfl, ?_, g1, rfl, rfl⟩
  refine { h with pl := hl, rm := by simp only; omega, lk := ?_, fr := ?_ }
  · intro k
    have hpos : ∀ x ∈ ent ps k, 0 ≤ x := fun x hx => h.en _ (mem_ent.1 hx)
    refine Links.congr (h.lk k) l1 hpos (ent_nodup h.nd k) ?_ ?_ ?_
    · intro x hx hlt; exact k1 x (hpos x hx) hlt
    · intro x hx hlt
      exact k2 x (hpos x (List.mem_of_mem_tail hx)) (by omega)
    · intro x hx hge hlt; exact n1 x hge hlt
  · intro x h0 hx hn
    by_cases hc : x < sd.nexts.len
    · rw [k1 x h0 hc]; exact h.fr x h0 hc hn
    · exact n1 x (by omega) hx

/-- `insertEntry` puts a fresh entry in front of the list of its key. -/
theorem insertEntry_ok (h : Inv sd ps room span counted) {k e : Int} (hk : 0 ≤ k ∧ k < 1073741824)
    (he : 0 ≤ e ∧ e < 1073741824) (hf : e ∉ ps.map (·.2))
    (hl : ∀ x, ent ps k = [x] → x < max room (e + 1)) (hb : ps.length < 1073741824) :
    ∃ sd', insertEntry k e sd = .ok () sd' ∧
      Inv sd' ((k, e) :: ps) (if ent ps k = [] then room else max room (e + 1)) (max span (k + 1))
        counted ∧ (ent ps k = [] → sd'.nexts = sd.nexts) := by
  obtain ⟨s1, c1, i1, b1, hnx, _⟩ := ensureKey_ok h hk
  have hh1 := i1.hd k hk.1 b1
  have hlen := length_le (ps := ps) k
  -- the last two statements
  have fin : ∀ (s2 : Side) (room' : Int), s2.heads = s1.heads → s2.count = s1.count →
      s2.prevs.len = s2.nexts.len → room' ≤ s2.nexts.len →
      (∀ k', Links s2.nexts s2.prevs (ent ((k, e) :: ps) k')) →
      (∀ x : Int, 0 ≤ x → x < s2.nexts.len → x ∉ ((k, e) :: ps).map (·.2) → s2.nexts.get x = -1) →
      ∃ sd', (do wrHeads k e; addCount k 1) s2 = .ok () sd' ∧
        Inv sd' ((k, e) :: ps) room' (max span (k + 1)) counted ∧ sd'.nexts = s2.nexts := by
    intro s2 room' q1 q2 q3 q4 q5 q6
    have hw : wrHeads k e s2 = .ok () { s2 with heads := s2.heads.set k e } :=
      wr_ok _ _ ⟨hk.1, by rw [q1]; exact b1⟩
    rw [JM.bind_ok hw]
    have hcl := i1.ctLen
    rw [addCount_ok (sd := { s2 with heads := s2.heads.set k e })
      ⟨hk.1, by simp only [Arr.len_set, q1]; exact b1⟩ (by simpa [q1, q2] using hcl)]
    refine ⟨_, rfl, ?_, rfl⟩
    refine { pl := q3, rm := q4, sp := ?_, ks := ?_, en := ?_, nd := ?_, hd := ?_, lk := q5, fr := q6,
             ct := ?_ }
    · simpa [q1] using i1.sp
    · intro p hp
      rcases List.mem_cons.1 hp with rfl | hp
      · simp only; omega
      · exact i1.ks p hp
    · intro p hp
      rcases List.mem_cons.1 hp with rfl | hp
      · exact he.1
      · exact h.en p hp
    · rw [List.map_cons, List.nodup_cons]; exact ⟨hf, h.nd⟩
    · intro x hx0 hx
      simp only [Arr.len_set, q1] at hx
      simp only [q1, Arr.get_set, ent_cons]
      by_cases hc : x = k
      · subst hc; simp
      · rw [if_neg hc, if_neg (fun hh => hc hh.symm)]; exact i1.hd x hx0 hx
    · rcases i1.ct with ⟨p1, p2⟩ | ⟨p1, c, p2, p3, p4⟩
      · left; exact ⟨p1, by simp [q2, p2]⟩
      · right
        refine ⟨p1, c.set k (i32 (c.get k + 1)), by simp [q2, p2], by simp [q1, p3], ?_⟩
        intro x hx0 hx
        simp only [Arr.len_set, q1] at hx
        rw [Arr.get_set, ent_cons]
        by_cases hc : x = k
        · subst hc
          simp only [if_true]
          rw [p4 x hx0 hx, i32_of_range (by omega)]
          simp
        · rw [if_neg hc, if_neg (fun hh => hc hh.symm)]; exact p4 x hx0 hx
  unfold insertEntry
  rw [JM.bind_ok c1, JM.bind_ok (rd_ok _ ⟨hk.1, b1⟩), hh1]
  rcases hent : ent ps k with _ | ⟨o, t⟩
  · -- the key had no association
    rw [show ([] : List Int).headD (-1) = -1 from rfl, JM.when_neg (by simp), JM.bind_ok (JM.pure_apply _ _)]
    simp only [if_true]
    have hfin := fin s1 room rfl rfl i1.pl i1.rm ?_ ?_
    · obtain ⟨x, x1, x2, x3⟩ := hfin
      exact ⟨x, x1, x2, fun _ => x3.trans hnx⟩
    · intro k'
      rw [ent_cons]
      by_cases hc : k = k'
      · subst hc
        simp only [if_true, hent]
        intro hlt
        exact i1.fr e he.1 hlt hf
      · simp only; rw [if_neg hc]; exact i1.lk k'
    · intro x h0 hx hn
      exact i1.fr x h0 hx (fun hh => hn (by simp only [List.map_cons]; exact List.mem_cons_of_mem _ hh))
  · rw [show (o :: t).headD (-1) = o from rfl]
    have hoe : o ∈ ent ps k := by rw [hent]; simp
    have ho0 : 0 ≤ o := h.en _ (mem_ent.1 hoe)
    rw [JM.when_pos (by omega)]
    obtain ⟨s2, c2, i2, b2, hh2, hc2⟩ := ensureEntry_ok i1 he
    have hol : o < s2.nexts.len := by
      refine covered_bound i2 ?_ hoe
      exact hl
    have hpl := i2.pl
    have hoe_ne : o ≠ e := by
      intro hh; subst hh
      exact hf ((ent_sub k).subset hoe)
    have w1 : wrNexts e o s2 = .ok () { s2 with nexts := s2.nexts.set e o } := wr_ok _ _ ⟨he.1, b2⟩
    have w2 : wrPrevs o e { s2 with nexts := s2.nexts.set e o } =
        .ok () { s2 with nexts := s2.nexts.set e o, prevs := s2.prevs.set o e } :=
      wr_ok _ _ ⟨ho0, by simp only; omega⟩
    have hblk : (do ensureEntry e; wrNexts e o; wrPrevs o e : JM Side Unit) s1 =
        .ok () { s2 with nexts := s2.nexts.set e o, prevs := s2.prevs.set o e } := by
      rw [JM.bind_ok c2, JM.bind_ok w1]; exact w2
    rw [JM.bind_ok hblk, if_neg (by simp)]
    have hnk : ∀ k' x, x ∈ ent ps k' → x ≠ e := fun k' x hx hh => by
      subst hh; exact hf ((ent_sub k').subset hx)
    have hfin := fin { s2 with nexts := s2.nexts.set e o, prevs := s2.prevs.set o e } (max room (e + 1)) hh2 hc2 (by simpa using hpl) (by simpa using i2.rm) ?_ ?_
    · obtain ⟨x, x1, x2, _⟩ := hfin
      exact ⟨x, x1, x2, fun hh => by simp at hh⟩
    · intro k'
      have hnd := ent_nodup h.nd k'
      have hpos : ∀ x ∈ ent ps k', 0 ≤ x := fun x hx => h.en _ (mem_ent.1 hx)
      have old : Links (s2.nexts.set e o) (s2.prevs.set o e) (ent ps k') := by
        refine Links.congr (i2.lk k') (by simp) hpos hnd ?_ ?_ ?_
        · intro x hx _
          exact Arr.get_set_ne _ _ (hnk k' x hx)
        · intro x hx _
          refine Arr.get_set_ne _ _ ?_
          intro hh; subst hh
          have := key_unique h.nd hoe (List.mem_of_mem_tail hx)
          subst this
          rw [hent] at hx hnd
          exact (List.nodup_cons.1 hnd).1 hx
        · intro x hx h1 h2
          simp only [Arr.len_set] at h2
          omega
      rw [ent_cons]
      by_cases hc : k = k'
      · subst hc
        simp only [if_true]
        rw [hent] at old ⊢
        exact ⟨b2, hol, by simp, by simp, old⟩
      · simp only; rw [if_neg hc]; exact old
    · intro x h0 hx hn
      simp only [List.map_cons, List.mem_cons, not_or] at hn
      simp only [Arr.len_set] at hx
      rw [Arr.get_set_ne _ _ hn.1]
      exact i2.fr x h0 hx hn.2

end Side
end Verif
