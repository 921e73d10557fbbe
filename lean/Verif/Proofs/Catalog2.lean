import Verif.Proofs.Bi5
import Verif.Proofs.Catalog1
import Verif.Spec.Catalog
/-! A two-sided collection between two indexed collections, all only ever added to. -/
set_option linter.unusedSectionVars false
namespace Verif.Catalog
open Verif.Bi Verif.BiSpec Verif.CatalogSpec
variable {κ ω : Type} [Inhabited κ] [Inhabited ω] [DecidableEq κ] [DecidableEq ω]

/-- The ideal collection holds the pairs of entries of the facts `F`. -/
structure LinkA (many : Bool) (c : Int) (i : Ideal) (T : List κ) (O : List ω) (F : List (κ × ω)) : Prop where
  counted : i.counted = true
  many : i.many = many
  free : i.free = []
  res : i.reserved = []
  next : i.next = F.length
  room : ∀ d, c ≤ i.room d
  span : ∀ d, i.has d → c ≤ i.span d
  pairs : (i.assocs.map fun a => (a.left, a.right)) = F.map fun f => (pos T f.1, pos O f.2)
  mem : ∀ f ∈ F, f.1 ∈ T ∧ f.2 ∈ O
  nodup : F.Nodup

variable {many : Bool} {c : Int} {b : Bi} {i : Ideal} {T : List κ} {O : List ω} {F : List (κ × ω)}

theorem LinkA.length (h : LinkA many c i T O F) : i.assocs.length = F.length := by
  simpa using congrArg List.length h.pairs

theorem LinkA.mono_left (h : LinkA many c i T O F) (t : κ) : LinkA many c i (addKey T t) O F := by
  refine { h with pairs := ?_, mem := fun f hf => ⟨mem_addKey.2 (.inl (h.mem f hf).1), (h.mem f hf).2⟩ }
  rw [h.pairs]
  apply List.map_congr_left
  intro f hf; rw [pos_addKey (h.mem f hf).1]

theorem LinkA.mono_right (h : LinkA many c i T O F) (o : ω) : LinkA many c i T (addKey O o) F := by
  refine { h with pairs := ?_, mem := fun f hf => ⟨(h.mem f hf).1, mem_addKey.2 (.inl (h.mem f hf).2)⟩ }
  rw [h.pairs]
  apply List.map_congr_left
  intro f hf; rw [pos_addKey (h.mem f hf).2]

theorem live_lt (hI : Bi.Inv b i) {e : Int} (he : e ∈ i.live) : 0 ≤ e ∧ e < i.next := by
  have := (hI.idx.mem_range e).1 (.inl (by rw [live_toAbs]; exact he))
  exact this

theorem entries_live {d : Dir} {k x : Int} (h : x ∈ i.entriesOf d k) : x ∈ i.live := by
  unfold Ideal.entriesOf Ideal.of at h
  obtain ⟨a, ha, rfl⟩ := List.mem_map.1 h
  exact List.mem_map.2 ⟨a, (List.mem_filter.1 ha).1, rfl⟩

theorem int_of_pos {K : Type} [DecidableEq K] {ks : List K} {k : K} (hk : k ∈ ks) (hl : ks.length < 2 ^ 30) :
    IsInt (pos ks k) ∧ 0 ≤ pos ks k ∧ pos ks k < 2 ^ 30 := by
  have : 0 ≤ pos ks k ∧ pos ks k < ks.length := by
    simp only [pos, if_pos hk]
    have := List.idxOf_lt_length_of_mem hk
    omega
  unfold IsInt
  omega

theorem bi_int {o : Op} {m : JM Bi Int} (hs : Bi.step o = do return .int (← m)) {e : Int}
    (h : (Bi.step o b).out = .ok (.int e)) : m b = .ok e (Bi.step o b).state := by
  rw [hs] at h ⊢
  have hb : (do return Out.int (← m) : JM Bi Out) b =
    match m b with | .ok x t => .ok (Out.int x) t | .err x t => .err x t := by
    cases hm : m b with
    | ok x t => rw [JM.bind_ok hm]; rfl
    | err x t => rw [JM.bind_err hm]
  rw [hb] at h ⊢
  cases hm : m b with
  | ok x t =>
    rw [hm] at h
    simp only [Res.out_ok, Except.ok.injEq, Out.int.injEq] at h
    subst h; rfl
  | err x t => rw [hm] at h; simp at h

theorem bi_ints {o : Op} {m : JM Bi (List Int)} (hs : Bi.step o = do return .ints (← m)) :
    (∀ l, (Bi.step o b).out = .ok (.ints l) → m b = .ok l (Bi.step o b).state) ∧
    (∀ x, (Bi.step o b).out = .error x → m b = .err x (Bi.step o b).state) := by
  rw [hs]
  have hb : (do return Out.ints (← m) : JM Bi Out) b =
    match m b with | .ok x t => .ok (Out.ints x) t | .err x t => .err x t := by
    cases hm : m b with
    | ok x t => rw [JM.bind_ok hm]; rfl
    | err x t => rw [JM.bind_err hm]
  rw [hb]
  cases hm : m b with
  | ok x t =>
    refine ⟨fun l h => ?_, fun l h => by simp at h⟩
    simp only [Res.out_ok, Except.ok.injEq, Out.ints.injEq] at h
    subst h; rfl
  | err x t =>
    refine ⟨fun l h => by simp at h, fun l h => ?_⟩
    simp only [Res.out_err, Except.error.injEq] at h
    subst h; rfl

theorem find_pos (h : LinkA many c i T O F) {t : κ} {o : ω} (ht : t ∈ T) (ho : o ∈ O) :
    i.find (pos T t) (pos O o) = none ↔ (t, o) ∉ F := by
  unfold Ideal.find
  rw [List.find?_eq_none]
  constructor
  · intro hn hf
    have : (pos T t, pos O o) ∈ i.assocs.map fun a => (a.left, a.right) := by
      rw [h.pairs]; exact List.mem_map.2 ⟨_, hf, rfl⟩
    obtain ⟨a, ha, he⟩ := List.mem_map.1 this
    have := hn a ha
    simp only [decide_eq_true_eq] at this
    exact this (Prod.mk.inj he)
  · intro hn a ha
    simp only [decide_eq_true_eq]
    rintro ⟨h1, h2⟩
    have : (a.left, a.right) ∈ F.map fun f => (pos T f.1, pos O f.2) := by
      rw [← h.pairs]; exact List.mem_map.2 ⟨_, ha, rfl⟩
    obtain ⟨f, hf, he⟩ := List.mem_map.1 this
    obtain ⟨g1, g2⟩ := h.mem f hf
    simp only [Prod.mk.injEq, h1, h2] at he
    have e1 := pos_inj g1 ht he.1
    have e2 := pos_inj g2 ho he.2
    exact hn (by rw [← e1, ← e2]; exact hf)

/-- Stating a fact. -/
theorem link_put (hI : Bi.Inv b i) (h : LinkA many c i T O F) {t : κ} {o : ω} (ht : t ∈ T) (ho : o ∈ O)
    (hT : T.length < 2 ^ 30) (hO : O.length < 2 ^ 30) (hF : F.length + 29 < 2 ^ 29) :
    ∃ e b' i', Bi.put (pos T t) (pos O o) b = .ok e b' ∧ Bi.Inv b' i' ∧ LinkA many c i' T O (record (t, o) F) := by
  obtain ⟨t1, t2, t3⟩ := int_of_pos ht hT
  obtain ⟨o1, o2, o3⟩ := int_of_pos ho hO
  have halloc : i.alloc = i.next := by unfold Ideal.alloc; rw [h.free]
  have hg : BiSpec.Guard (.put (pos T t) (pos O o)) i := by
    refine ⟨t1, o1, fun _ => ⟨fun d _ => ⟨?_, ?_, ?_⟩, ?_⟩⟩
    · cases d; exacts [t2, o2]
    · cases d; exacts [t3, o3]
    · intro x hx
      have := live_lt hI (entries_live (by rw [hx]; exact List.mem_singleton_self x))
      rw [halloc]; omega
    · rw [h.length, h.res]; simpa using hF
  obtain ⟨h1, h2⟩ := Bi.step_spec hI _ hg
  by_cases hf : (t, o) ∈ F
  · cases hfi : i.find (pos T t) (pos O o) with
    | none => exact absurd hf ((find_pos h ht ho).1 hfi)
    | some a =>
      simp only [BiSpec.Ok, hfi] at h1
      have hput := bi_int (o := .put (pos T t) (pos O o)) rfl h1
      refine ⟨_, _, i, hput, ?_, by simpa [record, hf] using h⟩
      simpa only [BiSpec.after, hfi] using h2
  · have hfi := (find_pos h ht ho).2 hf
    simp only [BiSpec.Ok, hfi, halloc] at h1
    have hput := bi_int (o := .put (pos T t) (pos O o)) rfl h1
    refine ⟨_, _, _, hput, h2, ?_⟩
    rw [h1]
    simp only [BiSpec.after, hfi, record, if_neg hf]
    refine ⟨h.counted, h.many, by simp [Ideal.insert, h.free], h.res, ?_, ?_, ?_, ?_, ?_, ?_⟩
    · have := h.next
      simp only [Ideal.insert, List.length_cons]; omega
    · intro d
      have := h.room d
      simp only [Ideal.insert]; split <;> omega
    · intro d hd
      have := h.span d hd
      simp only [Ideal.insert]; omega
    · simp only [Ideal.insert, List.map_cons, h.pairs]
    · intro f hf
      rcases List.mem_cons.1 hf with rfl | hf
      exacts [⟨ht, ho⟩, h.mem f hf]
    · exact List.nodup_cons.2 ⟨hf, h.nodup⟩

/-- Choosing the key of a mapping. -/
theorem link_withKey (hI : Bi.Inv b i) (h : LinkA many c i T O F) (d : Dir) (k : Int) :
    ∃ b' i', Bi.withKey d k b = .ok () b' ∧ Bi.Inv b' i' ∧ LinkA many c i' T O F ∧ i'.key d = k ∧
      i'.assocs = i.assocs := by
  obtain ⟨-, h2⟩ := withKey_step hI d k
  have hs : (Bi.step (.withKey d k) b).state = setMap d b { map d b with key := k } := by
    simp only [Bi.step, withKey]; rw [JM.bind_ok (JM.modify_apply _ _)]; rfl
  rw [hs] at h2
  exact ⟨_, _, JM.modify_apply _ _, h2, { h with }, by simp, rfl⟩

/-- Counting. -/
theorem link_count (hI : Bi.Inv b i) (h : LinkA many c i T O F) {d : Dir} (hd : i.has d) (h0 : 0 ≤ i.key d) :
    ∃ b', Bi.count d b = .ok ((i.of d (i.key d)).length : Int) b' ∧ Bi.Inv b' i := by
  obtain ⟨h1, h2⟩ := Bi.step_spec hI (.count d) hd
  simp only [BiSpec.Ok, h.counted, Bool.true_eq_false, if_false] at h1
  rw [if_neg (by omega)] at h1
  exact ⟨_, bi_int (o := .count d) rfl h1, h2⟩

/-- Walking. -/
theorem link_walk (hI : Bi.Inv b i) (h : LinkA many c i T O F) {d : Dir} (hd : i.has d) (h0 : 0 ≤ i.key d) :
    ∃ b' i', Bi.Inv b' i' ∧ LinkA many c i' T O F ∧
      (Bi.forEachOf d .value b = .ok (i.listOf d .value (i.key d)) b' ∨
       Bi.forEachOf d .value b = .err .indexOutOfBounds b' ∧
        ((i.of d (i.key d)).length = 1 ∧ c < F.length ∨ i.of d (i.key d) = [] ∧ c ≤ i.key d)) := by
  obtain ⟨h1, h2⟩ := Bi.step_spec hI (.forEachOf d .value) hd
  obtain ⟨g1, g2⟩ := h1
  obtain ⟨e1, e2⟩ := bi_ints (b := b) (o := .forEachOf d .value) rfl
  refine ⟨_, _, h2, ?_, ?_⟩
  · simp only [BiSpec.after]
    exact { h with }
  · rcases g2 with g2 | g2
    · exact .inl (e1 _ g2)
    · right
      refine ⟨e2 _ g2, ?_⟩
      by_contra hcon
      have hcov : i.Covered d (i.key d) := by
        intro e he
        have hlen : (i.of d (i.key d)).length = 1 := by
          have := congrArg List.length he
          simpa [Ideal.entriesOf] using this
        have hc : F.length ≤ c := by
          by_contra hh; exact hcon (.inl ⟨hlen, by omega⟩)
        have hl := live_lt hI (entries_live (by rw [he]; exact List.mem_singleton_self e))
        have := h.room d
        have := h.next
        omega
      have hspan : i.key d < i.span d := by
        by_cases hn : i.of d (i.key d) = []
        · have := h.span d hd
          by_contra hh
          exact hcon (.inr ⟨hn, by omega⟩)
        · obtain ⟨a, ha⟩ := List.exists_mem_of_ne_nil _ hn
          unfold Ideal.of at ha
          obtain ⟨ha, hk⟩ := List.mem_filter.1 ha
          have := (hI.sides d hd).ks (a.key d, a.entry) (List.mem_map.2 ⟨a, ha, rfl⟩)
          have hk' : a.key d = i.key d := by simpa using hk
          simp only [hk'] at this
          exact this.2
      have := (g1 hcov).1 h0 hspan
      rw [g2] at this; simp at this

theorem pairs_left (h : LinkA many c i T O F) {t : κ} (ht : t ∈ T) :
    i.listOf .left .value (pos T t) = (F.filter fun f => f.1 = t).map fun f => pos O f.2 := by
  have : i.listOf .left .value (pos T t) =
      ((i.assocs.map fun a => (a.left, a.right)).filter fun p => p.1 = pos T t).map (·.2) := by
    unfold Ideal.listOf Ideal.of
    rw [List.filter_map, List.map_map]; rfl
  rw [this, h.pairs, List.filter_map, List.map_map]
  have hfil : F.filter ((fun p : Int × Int => decide (p.1 = pos T t)) ∘ fun f => (pos T f.1, pos O f.2)) =
      F.filter fun f => decide (f.1 = t) := by
    apply List.filter_congr
    intro f hf
    simp only [Function.comp]
    rw [decide_eq_decide]
    exact ⟨fun e => pos_inj (h.mem f hf).1 ht e, fun e => by rw [e]⟩
  rw [hfil]; rfl

theorem pairs_right (h : LinkA many c i T O F) {o : ω} (ho : o ∈ O) :
    i.listOf .right .value (pos O o) = (F.filter fun f => f.2 = o).map fun f => pos T f.1 := by
  have : i.listOf .right .value (pos O o) =
      ((i.assocs.map fun a => (a.left, a.right)).filter fun p => p.2 = pos O o).map (·.1) := by
    unfold Ideal.listOf Ideal.of
    rw [List.filter_map, List.map_map]; rfl
  rw [this, h.pairs, List.filter_map, List.map_map]
  have hfil : F.filter ((fun p : Int × Int => decide (p.2 = pos O o)) ∘ fun f => (pos T f.1, pos O f.2)) =
      F.filter fun f => decide (f.2 = o) := by
    apply List.filter_congr
    intro f hf
    simp only [Function.comp]
    rw [decide_eq_decide]
    exact ⟨fun e => pos_inj (h.mem f hf).2 ho e, fun e => by rw [e]⟩
  rw [hfil]; rfl

theorem of_length (i : Ideal) (d : Dir) (k : Int) : (i.of d k).length = (i.listOf d .value k).length := by
  simp [Ideal.listOf]

theorem new_link {many : Bool} {il ir ic c : Int} (hn : Bi.new many il ir ic true = .ok b) (hc : c ≤ ic) (hl : c ≤ il)
    (hr : many = true → c ≤ ir) : ∃ i, Bi.Inv b i ∧ LinkA many c i ([] : List κ) ([] : List ω) [] := by
  refine ⟨_, Bi.new_inv hn, rfl, rfl, rfl, rfl, rfl, fun _ => hc, ?_, rfl, by simp, List.nodup_nil⟩
  intro d hd
  cases d
  · exact hl
  · exact hr hd

end Verif.Catalog
