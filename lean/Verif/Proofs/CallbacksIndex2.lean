import Verif.Proofs.CallbacksIndex
set_option linter.unusedSectionVars false
/-! Proof that the `forEach` methods of the indexed collections keep their place when the consumer removes entries
other than the next. -/
namespace Verif.Index
open Verif.IndexSpec
variable {K V : Type} [Inhabited K] [Inhabited V]
variable {tight : Prop} {s : Index K V} {a : Abs K V} {F : List Int}

/-- The chain of a head. -/
def chainOf (s : Index K V) (i : Int) : List Int := chainFrom s.nexts (s.nexts.len + 1) (s.heads.get i)

theorem filter_ne_self {l : List Int} {e : Int} (h : e ∉ l) : l.filter (· ≠ e) = l := by
  rw [List.filter_eq_self]
  intro x hx
  simp only [ne_eq, decide_eq_true_eq]
  rintro rfl; exact h hx

theorem filter_ne_mid {l1 l2 : List Int} {e : Int} (h : (l1 ++ e :: l2).Nodup) :
    (l1 ++ e :: l2).filter (· ≠ e) = l1 ++ l2 := by
  rw [List.nodup_append] at h
  obtain ⟨-, h2, h3⟩ := h
  rw [List.filter_append, List.filter_cons_of_neg (by simp), filter_ne_self (List.nodup_cons.1 h2).1,
    filter_ne_self (fun hh => h3 e hh e (by simp) rfl)]

/-- Cutting one cell out of a chain: what is before and what is after it stays. -/
theorem cut_path {n n' : Arr Int} {e : Int}
    (hn : ∀ x, x ≠ e → n.get x ≠ e → n'.get x = n.get x) (hlen : n'.len = n.len) :
    ∀ (l1 : List Int) {x x' : Int} {l2 m : List Int} {t t' : Int}, Path n x (l1 ++ e :: l2) t →
      Path n' x' m t' → (l1 ≠ [] → x' = x) →
      (∀ y, y ∈ m ↔ y ∈ l1 ++ l2) → m = l1 ++ l2
  | [], x, x', l2, m, t, t', hp, hp', _, hm => by
    simp only [List.nil_append] at hp hm ⊢
    obtain ⟨rfl, h0, h1, h2⟩ := hp
    have hnd : (x :: l2).Nodup := Path.nodup (a := n) (x := x) (t := t) ⟨rfl, h0, h1, h2⟩
    cases m with
    | nil =>
      cases l2 with
      | nil => rfl
      | cons y l2 => exact absurd ((hm y).2 (by simp)) (by simp)
    | cons y m =>
      obtain ⟨rfl, p0, p1, p2⟩ := hp'
      obtain ⟨m1, m2, hl, hs⟩ := h2.suffix ((hm x').1 (by simp))
      have hsub : ∀ z ∈ x' :: m2, z ≠ x := by
        rintro z hz rfl
        refine (List.nodup_cons.1 hnd).1 ?_
        rw [hl]; exact List.mem_append_right _ hz
      have hs' : Path n' x' (x' :: m2) t := by
        refine hs.congr (by omega) ?_
        intro z hz
        refine hn z (hsub z hz) ?_
        intro hzz
        -- the successor of `z` on the path is on the path or negative
        obtain ⟨q1, q2, hq, hqs⟩ := hs.suffix hz
        have hq3 := hqs.2.2.2
        rw [hzz] at hq3
        obtain ⟨w, hw, _⟩ := hq3.nonneg_cons h0
        exact hsub x (by rw [hq, hw]; simp) rfl
      have hq' : Path n' x' (x' :: m) t' := ⟨rfl, p0, p1, p2⟩
      have he := (Path.unique hs' hq').1
      rw [← he] at hm ⊢
      cases m1 with
      | nil => rw [hl]; rfl
      | cons w m1 =>
        have hw : w ∈ x' :: m2 := (hm w).2 (by rw [hl]; simp)
        have hnd2 := (List.nodup_cons.1 hnd).2
        rw [hl, List.cons_append] at hnd2
        exact absurd (List.mem_append_right _ hw) (List.nodup_cons.1 hnd2).1
  | z :: l1, x, x', l2, m, t, t', hp, hp', hx, hm => by
    have := hx (by simp)
    subst this
    have hnd := hp.nodup
    obtain ⟨rfl, h0, h1, h2⟩ := hp
    obtain ⟨m', rfl, p1, p2⟩ := hp'.nonneg_cons h0
    have hnd' := hp'.nodup
    rw [List.cons_append] at hnd hm ⊢
    have hne : x' ≠ e := by
      rintro rfl
      exact (List.nodup_cons.1 hnd).1 (by simp)
    congr 1
    refine cut_path hn hlen l1 h2 p2 ?_ ?_
    · intro hl1
      refine hn x' hne ?_
      intro hh
      cases l1 with
      | nil => exact hl1 rfl
      | cons w l1 =>
        have hw := h2.1
        rw [hh] at hw
        subst hw
        have := (List.nodup_cons.1 hnd).2
        rw [List.cons_append] at this
        exact (List.nodup_cons.1 this).1 (by simp)
    · intro y
      have hy := hm y
      have hxx : x' ∉ l1 ++ l2 := by
        intro hh
        refine (List.nodup_cons.1 hnd).1 ?_
        rcases List.mem_append.1 hh with h | h
        · exact List.mem_append_left _ h
        · exact List.mem_append_right _ (List.mem_cons_of_mem _ h)
      have hxm := (List.nodup_cons.1 hnd').1
      by_cases hyx : y = x'
      · subst hyx; exact ⟨fun h => absurd h hxm, fun h => absurd h hxx⟩
      · simp only [List.mem_cons, hyx, false_or] at hy; exact hy

theorem chainOf_cut {tight' : Prop} {s' : Index K V} {a' : Abs K V} {F' : List Int} {e : Int}
    (h : Inv tight s a F) (h' : Inv tight' s' a' F') (hp : Pres s s' [e]) (h0 : 0 ≤ e)
    (hlive : ∀ x, x ∈ a'.live ↔ x ∈ a.live ∧ x ≠ e) (hhd : ∀ x ∈ a'.live, hdAt s' x = hdAt s x)
    {i : Int} (hi0 : 0 ≤ i) (hi1 : i < s.heads.len) : chainOf s' i = (chainOf s i).filter (· ≠ e) := by
  obtain ⟨t, p1, m1⟩ := chain_at h hi0 hi1
  obtain ⟨t', p2, m2⟩ := chain_at h' hi0 (by have := hp.1; omega)
  have hm : ∀ y, y ∈ chainOf s' i ↔ y ∈ chainOf s i ∧ y ≠ e := by
    intro y
    show y ∈ chainFrom _ _ _ ↔ y ∈ chainFrom _ _ _ ∧ _
    rw [m1, m2]
    constructor
    · rintro ⟨g1, g2⟩
      have := (hlive y).1 g1
      exact ⟨⟨this.1, by rw [← hhd y g1]; exact g2⟩, this.2⟩
    · rintro ⟨⟨g1, g2⟩, g3⟩
      have := (hlive y).2 ⟨g1, g3⟩
      exact ⟨this, by rw [hhd y this]; exact g2⟩
  by_cases he : e ∈ chainOf s i
  · obtain ⟨l1, l2, hl, -⟩ := p1.suffix he
    have hl' : chainOf s i = l1 ++ e :: l2 := hl
    have hnd := p1.nodup
    rw [hl] at p1 hnd
    rw [hl', filter_ne_mid hnd]
    refine cut_path (fun x hx hx' => hp.2.2.2 x (by simpa using hx) (by simpa using hx')) hp.2.1 l1 p1 p2 ?_ ?_
    · intro hl1
      refine hp.2.2.1 i ?_
      simp only [List.mem_singleton]
      intro hh
      cases l1 with
      | nil => exact hl1 rfl
      | cons w l1 =>
        have hw := p1.1
        rw [hh] at hw
        subst hw
        rw [List.cons_append] at hnd
        exact (List.nodup_cons.1 hnd).1 (by simp)
    · intro y
      refine (hm y).trans ?_
      rw [hl', ← filter_ne_mid hnd, List.mem_filter, decide_eq_true_eq]
  · rw [filter_ne_self he]
    have hpth := hp.path (by simpa using h0) p1 (fun y hy => by
      simp only [List.mem_singleton]; rintro rfl; exact he hy)
    have hh : s'.heads.get i = s.heads.get i := by
      refine hp.2.2.1 i ?_
      simp only [List.mem_singleton]
      intro hh
      obtain ⟨l', hl', _⟩ := p1.nonneg_cons (by omega)
      refine he ?_
      show e ∈ chainFrom _ _ _
      rw [hl', hh]; simp
    show chainFrom _ _ _ = chainFrom _ _ _
    rw [hh]
    exact chainFrom_path _ _ _ _ _ hpth (by have := hpth.length_le; omega)

/-- What calls that take out entries do to the chains. -/
def Shrunk (s s' : Index K V) (a a' : Abs K V) : Prop :=
  s'.heads.len = s.heads.len ∧ s'.nexts.len = s.nexts.len ∧
  (∀ r ∈ a'.rows, ∃ v, (⟨r.entry, r.key, v⟩ : Row K V) ∈ a.rows) ∧
  ∀ i : Int, 0 ≤ i → i < s.heads.len → chainOf s' i = (chainOf s i).filter fun e => e ∈ a'.live

theorem Shrunk.live {s s' : Index K V} {a a' : Abs K V} (h : Shrunk s s' a a') {x : Int} (hx : x ∈ a'.live) :
    x ∈ a.live := by
  obtain ⟨r, hr, rfl⟩ := List.mem_map.1 hx
  obtain ⟨v, hv⟩ := h.2.2.1 r hr
  exact List.mem_map.2 ⟨_, hv, rfl⟩

theorem shrunk_refl (h : Inv tight s a F) : Shrunk s s a a := by
  refine ⟨rfl, rfl, fun r hr => ⟨r.val, hr⟩, ?_⟩
  intro i h0 h1
  obtain ⟨t, p1, m1⟩ := chain_at h h0 h1
  symm
  rw [List.filter_eq_self]
  intro x hx
  simpa using ((m1 x).1 hx).1

theorem Shrunk.trans {s s' s'' : Index K V} {a a' a'' : Abs K V} (h : Shrunk s s' a a') (h' : Shrunk s' s'' a' a'') :
    Shrunk s s'' a a'' := by
  refine ⟨h'.1.trans h.1, h'.2.1.trans h.2.1, ?_, ?_⟩
  · intro r hr
    obtain ⟨v, hv⟩ := h'.2.2.1 r hr
    have := h.2.2.1 _ hv
    exact this
  · intro i h0 h1
    rw [h'.2.2.2 i h0 (by have := h.1; omega), h.2.2.2 i h0 h1, List.filter_filter]
    apply List.filter_congr
    intro x _
    by_cases hx : x ∈ a''.live
    · simp [hx, h'.live hx]
    · simp [hx]

theorem hdAt_eq {tight' : Prop} {s' : Index K V} {a' : Abs K V} {F' : List Int} (h : Inv tight s a F)
    (h' : Inv tight' s' a' F') (hh : s'.heads.len = s.heads.len) (hf : a'.hash = a.hash)
    (hr : ∀ r ∈ a'.rows, ∃ v, (⟨r.entry, r.key, v⟩ : Row K V) ∈ a.rows) :
    ∀ x ∈ a'.live, hdAt s' x = hdAt s x := by
  intro x hx
  obtain ⟨r, hr', rfl⟩ := List.mem_map.1 hx
  obtain ⟨v, hv⟩ := hr r hr'
  have e1 := (h'.rowsOk r (.inl hr')).1
  have e2 := (h.rowsOk _ (.inl hv)).1
  unfold hdAt
  rw [e1, e2, hh, h.hash, h'.hash, hf]

theorem after_hash {nx : Option Int} (o : Op K V) (out : Except Err (Out K V)) (a : Abs K V) (hk : KeepsNext nx o a) :
    (after o out a).hash = a.hash := by
  cases o <;> simp only [after, KeepsNext] at hk ⊢ <;> (try split) <;> rfl

theorem step_shrunk {nx : Option Int} (h : Inv tight s a F) (o : Op K V) (hg : Guard o a) (hk : KeepsNext nx o a) :
    Shrunk s (step o s).state a (after o (step o s).out a) ∧
      ∀ x ∈ a.live, nx = some x → x ∈ (after o (step o s).out a).live := by
  have ht : Tame (a.live.filter fun x => nx ≠ some x) o a := by
    cases o <;> simp only [Tame, KeepsNext] at hk ⊢ <;> try exact hk
    case remove k =>
      intro r hr
      simp only [List.mem_filter, decide_eq_true_eq]
      exact ⟨List.mem_map_of_mem (find_some hr).1, hk r hr⟩
    case removeAt e =>
      intro he
      simp only [List.mem_filter, decide_eq_true_eq]
      exact ⟨he, hk⟩
    case removeAtAndReserve e =>
      simp only [List.mem_filter, decide_eq_true_eq]
      obtain ⟨r, hr1, hr2, -⟩ := hg
      exact ⟨hr2 ▸ List.mem_map_of_mem hr1, hk⟩
  obtain ⟨F1, h1⟩ := (step_spec h o hg).2.2
  obtain ⟨D, q1, q2, q3, q4, -, q6, q7, q8⟩ := step_quiet h o hg ht
  have hmono : ∀ r ∈ (after o (step o s).out a).rows, ∃ v, (⟨r.entry, r.key, v⟩ : Row K V) ∈ a.rows :=
    fun r hr => (q7 r hr).2
  have hhd := hdAt_eq h h1 q1.1 (after_hash o _ a hk) hmono
  refine ⟨⟨q1.1, q1.2.1, hmono, ?_⟩, ?_⟩
  · -- one entry, possibly a dummy
    obtain ⟨e, he0, hpe, hlv⟩ : ∃ e : Int, 0 ≤ e ∧ Pres s (step o s).state [e] ∧
        ∀ x, x ∈ (after o (step o s).out a).live ↔ x ∈ a.live ∧ x ≠ e := by
      have hlv : ∀ x, x ∈ (after o (step o s).out a).live ↔ x ∈ a.live ∧ x ∉ D := by
        intro x
        constructor
        · intro hx
          obtain ⟨r, hr, rfl⟩ := List.mem_map.1 hx
          obtain ⟨g1, v, g2⟩ := q7 r hr
          exact ⟨List.mem_map.2 ⟨_, g2, rfl⟩, g1⟩
        · rintro ⟨hx, hd⟩
          obtain ⟨r, hr, rfl⟩ := List.mem_map.1 hx
          obtain ⟨v, g2⟩ := q8 r hr hd
          exact List.mem_map.2 ⟨_, g2, rfl⟩
      match D, q6 with
      | [], _ =>
        refine ⟨s.nexts.len, by omega, ⟨q1.1, q1.2.1, fun i _ => q1.2.2.1 i (by simp),
          fun x _ _ => q1.2.2.2 x (by simp) (by simp)⟩, ?_⟩
        intro x
        rw [hlv]
        constructor
        · rintro ⟨hx, -⟩
          have := (h.live_range hx).2
          exact ⟨hx, by omega⟩
        · rintro ⟨hx, -⟩; exact ⟨hx, by simp⟩
      | [e], _ =>
        refine ⟨e, q2 e (by simp), q1, ?_⟩
        intro x
        rw [hlv]; simp
    intro i h0 hi
    rw [chainOf_cut h h1 hpe he0 hlv hhd h0 hi]
    apply List.filter_congr
    intro x hx
    obtain ⟨t, p1, m1⟩ := chain_at h h0 hi
    have := ((m1 x).1 hx).1
    simp [hlv, this]
  · rintro x hx rfl
    obtain ⟨r, hr, rfl⟩ := List.mem_map.1 hx
    obtain ⟨v, hv⟩ := q4 r hr (by simp)
    exact List.mem_map.2 ⟨_, hv, rfl⟩

theorem calls_shrunk {nx : Option Int} : ∀ (ops : List (Op K V)) (s : Index K V) (a : Abs K V) (F : List Int),
    Inv tight s a F → AllKeepNext nx a s ops →
    ∃ F', Inv tight (final s ops) (ideal a s ops) F' ∧ Shrunk s (final s ops) a (ideal a s ops) ∧
      ∀ x ∈ a.live, nx = some x → x ∈ (ideal a s ops).live
  | [], s, a, F, h, _ => ⟨F, h, shrunk_refl h, fun _ hx _ => hx⟩
  | o :: ops, s, a, F, h, ht => by
    obtain ⟨q1, q2⟩ := step_shrunk h o ht.1.1 ht.1.2
    obtain ⟨F1, h1⟩ := (step_spec h o ht.1.1).2.2
    obtain ⟨F2, k1, k2, k3⟩ := calls_shrunk ops _ _ F1 h1 ht.2
    exact ⟨F2, k1, q1.trans k2, fun x hx he => k3 x (q2 x hx he) he⟩

/-- The rest of a chain after calls that keep its first entry. -/
theorem Shrunk.path {tight' : Prop} {s' : Index K V} {a' : Abs K V} {F' : List Int} (h : Inv tight s a F)
    (h' : Inv tight' s' a' F') (hs : Shrunk s s' a a') {x : Int} {l : List Int} {t : Int}
    (hp : Path s.nexts x (x :: l) t) (hx : x ∈ a.live) (hx' : x ∈ a'.live) :
    ∃ t', Path s'.nexts x ((x :: l).filter fun e => e ∈ a'.live) t' := by
  have hr := h.hd_range (s.keys.get x)
  obtain ⟨t1, p1, m1⟩ := chain_at h hr.1 hr.2
  obtain ⟨t2, p2, m2⟩ := chain_at h' hr.1 (by have := hs.1; omega)
  have hxc := (m1 x).2 ⟨hx, rfl⟩
  obtain ⟨l1, l2, hl, hsuf⟩ := p1.suffix hxc
  obtain ⟨e1, e2⟩ := hsuf.unique hp
  have hch := hs.2.2.2 _ hr.1 hr.2
  have hl' : chainOf s (headOf s.hashFunc s.heads.len (s.keys.get x)) = l1 ++ x :: l2 := hl
  rw [hl', List.filter_append, e1] at hch
  have hxc' : x ∈ chainFrom s'.nexts (s'.nexts.len + 1)
      (s'.heads.get (headOf s.hashFunc s.heads.len (s.keys.get x))) := by
    show x ∈ chainOf s' _
    rw [hch]
    refine List.mem_append_right _ (List.mem_filter.2 ⟨by simp, by simpa using hx'⟩)
  obtain ⟨w1, w2, hw, hws⟩ := p2.suffix hxc'
  have hnd := p2.nodup
  refine ⟨t2, ?_⟩
  have hw' : chainOf s' (headOf s.hashFunc s.heads.len (s.keys.get x)) = w1 ++ x :: w2 := hw
  rw [hw'] at hch
  rw [hw] at hnd
  rw [List.filter_cons_of_pos (by simpa using hx')] at hch ⊢
  -- the position of `x` is unique
  have : w2 = l.filter fun e => e ∈ a'.live := by
    have hnx : x ∉ w1 := by
      rw [List.nodup_append] at hnd
      exact fun hh => hnd.2.2 x hh x (by simp) rfl
    have hnx2 : x ∉ l1.filter fun e => e ∈ a'.live := by
      intro hh
      have hn := p1.nodup
      rw [hl, List.nodup_append] at hn
      exact hn.2.2 x (List.mem_filter.1 hh).1 x (by simp) rfl
    rw [List.append_eq_append_iff] at hch
    rcases hch with ⟨u, h1, h2⟩ | ⟨u, h1, h2⟩
    · cases u with
      | nil => simpa using h2
      | cons y u =>
        simp only [List.cons_append, List.cons.injEq] at h2
        exact absurd (by rw [h1, ← h2.1]; simp) hnx2
    · cases u with
      | nil => simpa using h2.symm
      | cons y u =>
        simp only [List.cons_append, List.cons.injEq] at h2
        exact absurd (by rw [h1, ← h2.1]; simp) hnx
  rw [← this]
  exact hws

theorem filter_live_trans {a' a'' : Abs K V} (h : ∀ x, x ∈ a''.live → x ∈ a'.live) (l : List Int) :
    (l.filter fun e => e ∈ a'.live).filter (fun e => e ∈ a''.live) = l.filter fun e => e ∈ a''.live := by
  rw [List.filter_filter]
  apply List.filter_congr
  intro x _
  by_cases hx : x ∈ a''.live
  · simp [hx, h x hx]
  · simp [hx]

theorem walkDo_walks {k : Kind} {f : Consumer (Out K V) (Op K V)} {out : List (Out K V)}
    {t : Index K V} {c : Abs K V} :
    ∀ (fuel : Nat) (l rest : List Int) (seen : List (Out K V)) (s : Index K V) (a : Abs K V) (F : List Int)
      (e u : Int), Inv tight s a F → Walks k f seen s a (l ++ rest) out t c →
      Path s.nexts e l u → (∀ x ∈ l ++ rest, x ∈ a.live) → l.length < fuel →
      ∃ s' a' F' seen', walkDo k f fuel e seen s = .ok seen' s' ∧ Inv tight s' a' F' ∧
        Walks k f seen' s' a' (rest.filter fun e => e ∈ a'.live) out t c ∧
        seen'.length ≤ seen.length + l.length ∧ Shrunk s s' a a'
  | 0, _, _, _, _, _, _, _, _, _, _, _, _, h => by omega
  | fuel + 1, [], rest, seen, s, a, F, e, u, hI, hv, hp, hl, _ => by
    have h1 := hp.1; have h2 := hp.2
    refine ⟨s, a, F, seen, ?_, hI, ?_, by simp, shrunk_refl hI⟩
    · rw [walkDo, if_neg (by omega)]; rfl
    · rw [List.nil_append] at hv hl
      rw [List.filter_eq_self.2 (fun x hx => by simpa using hl x hx)]
      exact hv
  | fuel + 1, x :: l, rest, seen, s, a, F, e, u, hI, hv, hp, hlv, hl => by
    obtain ⟨rfl, h0, h1, h2⟩ := hp
    rw [List.cons_append] at hv
    have hlive := hlv e (by simp)
    cases hv with
    | @step _ _ _ _ _ _ _ _ b hb ht hrest =>
      obtain ⟨F1, c1, c2, c3⟩ := calls_shrunk _ s a F hI ht
      obtain ⟨u', hp'⟩ : ∃ u', Path (final s (f (seen ++ [b]))).nexts (s.nexts.get e)
          (l.filter fun e => e ∈ (ideal a s (f (seen ++ [b]))).live) u' := by
        cases l with
        | nil => exact ⟨u, h2⟩
        | cons y l =>
          have hy := h2.1
          rw [hy] at h2 ⊢
          have hyl := hlv y (by simp)
          exact c2.path hI c1 h2 hyl (c3 y hyl rfl)
      rw [List.filter_append] at hrest
      obtain ⟨s', a', F', seen', w1, w2, w3, w4, w5⟩ :=
        walkDo_walks fuel _ _ (seen ++ [b]) _ _ F1 _ u' c1 hrest hp'
          (fun x hx => by
            rw [← List.filter_append] at hx
            simpa using (List.mem_filter.1 hx).2)
          (Nat.lt_of_le_of_lt (List.length_filter_le _ _) (by simpa using hl))
      refine ⟨s', a', F', seen', ?_, w2, ?_, ?_, c2.trans w5⟩
      · rw [walkDo, if_pos h0, JM.bind_ok (rd_ok _ ⟨h0, h1⟩), JM.bind_ok (handed_spec hI hlive hb)]
        have hc : callAll step (f (seen ++ [b])) s = .ok () (final s (f (seen ++ [b]))) := rfl
        rw [JM.bind_ok hc]
        exact w1
      · rw [filter_live_trans (fun x hx => w5.live hx)] at w3
        exact w3
      · have h5 := List.length_filter_le (fun e => decide (e ∈ (ideal a s (f (seen ++ [b]))).live)) l
        simp only [List.length_append, List.length_cons, List.length_nil] at w4 ⊢
        omega

theorem orderFrom_shrunk {s s' : Index K V} {a a' : Abs K V} (h : Shrunk s s' a a') :
    ∀ (n : Nat) (i : Int), 0 ≤ i → i + n = s.heads.len →
      orderFrom s' n i = (orderFrom s n i).filter fun e => e ∈ a'.live
  | 0, _, _, _ => rfl
  | n + 1, i, h0, h1 => by
    unfold orderFrom
    rw [List.filter_append, ← orderFrom_shrunk h n (i + 1) (by omega) (by omega)]
    congr 1
    exact h.2.2.2 i h0 (by omega)

theorem scanDo_walks {k : Kind} {f : Consumer (Out K V) (Op K V)} {out : List (Out K V)}
    {t : Index K V} {c : Abs K V} (hits0 : Int) (inner : Nat) :
    ∀ (n fuel : Nat) (seen : List (Out K V)) (s : Index K V) (a : Abs K V) (F : List Int) (i : Int),
      Inv tight s a F → Walks k f seen s a (orderFrom s n i) out t c →
      0 ≤ i → i + n = s.heads.len → n < fuel → s.nexts.len < inner →
      (seen.length : Int) + (orderFrom s n i).length ≤ hits0 →
      scanDo k f hits0 inner fuel i seen s = .ok out t
  | n, 0, _, _, _, _, _, _, _, _, _, h, _, _ => by omega
  | 0, fuel + 1, seen, s, a, F, i, hI, hv, h0, h1, hfu, hin, hh => by
    rw [scanDo, JM.bind_ok (JM.get_apply _), if_neg (by omega)]
    cases hv; rfl
  | n + 1, fuel + 1, seen, s, a, F, i, hI, hv, h0, h1, hfu, hin, hh => by
    rw [scanDo, JM.bind_ok (JM.get_apply _)]
    by_cases hlt : (seen.length : Int) < hits0
    · obtain ⟨u, hp, hm⟩ := chain_at hI h0 (by omega)
      have hll := hp.length_le
      have hmem := (orderFrom_spec hI (n + 1) i h0 (by omega)).2
      rw [orderFrom] at hh hv hmem
      simp only [List.length_append] at hh
      obtain ⟨s1, a1, F1, seen1, w1, w2, w3, w4, w5⟩ :=
        walkDo_walks inner _ _ seen s a F _ u hI hv hp (fun x hx => ((hmem x).1 hx).1) (by omega)
      have hsame : orderFrom s1 n (i + 1) = (orderFrom s n (i + 1)).filter fun e => e ∈ a1.live :=
        orderFrom_shrunk w5 n (i + 1) (by omega) (by omega)
      have hlen := List.length_filter_le (fun e => decide (e ∈ a1.live)) (orderFrom s n (i + 1))
      rw [← hsame] at hlen w3
      rw [if_pos ⟨by omega, hlt⟩, JM.bind_ok (rd_ok _ ⟨h0, by omega⟩), JM.bind_ok w1]
      have e1 := w5.1
      have e2 := w5.2.1
      exact scanDo_walks hits0 inner n fuel seen1 s1 a1 F1 (i + 1) w2 w3
        (by omega) (by omega) (by omega) (by omega) (by omega)
    · rw [if_neg (by omega)]
      have : orderFrom s (n + 1) i = [] := List.length_eq_zero_iff.1 (by omega)
      rw [this] at hv
      cases hv; rfl

theorem forEachDo_walks {k : Kind} {f : Consumer (Out K V) (Op K V)} {out : List (Out K V)}
    {t : Index K V} {c : Abs K V} (hI : Inv tight s a F) (hv : Walks k f [] s a (order s) out t c)
    {fuel : Nat} (hf : s.heads.len + s.nexts.len < fuel) : forEachDo k f fuel s = .ok out t := by
  unfold forEachDo
  rw [JM.bind_ok (JM.get_apply _)]
  have hol := order_length hI
  by_cases hz : s.size = 0
  · rw [if_pos hz]
    have : order s = [] := List.length_eq_zero_iff.1 (by omega)
    rw [this] at hv
    cases hv; rfl
  · rw [if_neg hz]
    refine scanDo_walks s.size fuel s.heads.len fuel [] s a F 0 hI hv (by omega) (by omega) (by omega) (by omega)
      (by
        have : ((orderFrom s s.heads.len 0).length : Int) = s.size := hol
        simp only [List.length_nil]; omega)

end Verif.Index
