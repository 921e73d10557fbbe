import Verif.Proofs.Inverted
/-! Proofs about the school of the examples. -/
namespace Verif.School
open Verif.Catalog Verif.CatalogSpec Verif.Convert
open Verif.InvertedIndex (stringEq_iff record_length mem_record)

variable {st : Index (Option JString) Unit} {cl : Index (Option JString) (Option JString)} {b : Bi}

theorem onStudents_ok {α : Type} {m : JM (Index (Option JString) Unit) α} {a : α} {st'} (h : m st = .ok a st') :
    onStudents m ⟨st, cl, b⟩ = .ok a ⟨st', cl, b⟩ := by
  show (match m st with | .ok a t => _ | .err e t => _) = _
  rw [h]

theorem onClasses_ok {α : Type} {m : JM (Index (Option JString) (Option JString)) α} {a : α} {cl'}
    (h : m cl = .ok a cl') : onClasses m ⟨st, cl, b⟩ = .ok a ⟨st, cl', b⟩ := by
  show (match m cl with | .ok a t => _ | .err e t => _) = _
  rw [h]

theorem onRegs_ok {α : Type} {m : JM Bi α} {a : α} {b'} (h : m b = .ok a b') :
    onRegs m ⟨st, cl, b⟩ = .ok a ⟨st, cl, b'⟩ := by
  show (match m b with | .ok a t => _ | .err e t => _) = _
  rw [h]

theorem onRegs_err {α : Type} {m : JM Bi α} {a : Err} {b'} (h : m b = .err a b') :
    onRegs m ⟨st, cl, b⟩ = .err a ⟨st, cl, b'⟩ := by
  show (match m b with | .ok a t => _ | .err e t => _) = _
  rw [h]

/-- After `n` calls the school holds exactly the register `g`. -/
def Rel (n : Nat) (s : School) (g : Register) : Prop :=
  ∃ S i, Dict s.classToTeacher g.classes g.teacher ∧ Dict s.students S (fun _ => ()) ∧ Bi.Inv s.registrations i ∧
    LinkA true 16 i g.classes S g.enrolled ∧ g.classes.length ≤ n ∧ S.length ≤ n ∧ g.enrolled.length ≤ n ∧
    (∀ x ∈ S, ∃ f ∈ g.enrolled, f.2 = x)

variable {n : Nat} {s : School} {g : Register}

theorem new_rel (h : new = .ok s) : Rel 0 s ⟨[], fun _ => none, []⟩ := by
  unfold new at h
  cases h1 : Index.new (V := Unit) Strings.stringHash Strings.stringEq 16 3 4 with
  | error e => rw [h1] at h; cases h
  | ok students =>
    cases h2 : Index.new (V := Option JString) Strings.stringHash Strings.stringEq 16 3 4 with
    | error e => rw [h1, h2] at h; cases h
    | ok classes =>
      cases h3 : Bi.new true 16 16 16 true with
      | error e => rw [h1, h2, h3] at h; cases h
      | ok index =>
        rw [h1, h2, h3] at h
        cases h
        obtain ⟨i, g1, g2⟩ := new_link (κ := Option JString) (ω := Option JString) (c := 16) h3 (by omega) (by omega)
          (by omega)
        exact ⟨[], i, new_dict stringEq_iff h2 (by decide) _, new_dict stringEq_iff h1 (by decide) _, g1, g2,
          by simp, by simp, by simp, by simp⟩

theorem updateClass_rel (h : Rel n s g) (c t : Option JString) (hn : n + 32 < 2 ^ 29) :
    ∃ s', updateClass c t s = .ok () s' ∧ Rel (n + 1) s' (g.after (.updateClass c t)) := by
  obtain ⟨st, cl, b⟩ := s
  obtain ⟨S, i, hC, hS, hI, hL, l1, l2, l3, hf⟩ := h
  simp only at hC hS hI
  obtain ⟨cl', e1, hC'⟩ := put_dict hC c t (by omega)
  have len1 := addKey_length (ks := g.classes) c
  have ha : g.after (.updateClass c t) = ⟨addKey g.classes c, fun c' => if c' = c then t else g.teacher c', g.enrolled⟩ := by
    unfold Register.after addKey
    by_cases hc : c ∈ g.classes <;> simp [hc]
  rw [ha]
  refine ⟨⟨st, cl', b⟩, ?_, S, i, ?_, hS, hI, hL.mono_left c, ?_, by omega, ?_, hf⟩
  · unfold updateClass
    rw [JM.bind_ok (onClasses_ok e1)]; rfl
  · have : Function.update g.teacher c t = fun c' => if c' = c then t else g.teacher c' := by
      funext c'; simp [Function.update]
    rw [this] at hC'
    exact hC'
  · show (addKey g.classes c).length ≤ n + 1; omega
  · show g.enrolled.length ≤ n + 1; omega

theorem enroll_rel (h : Rel n s g) (c x : Option JString) (hn : n + 32 < 2 ^ 29) :
    ∃ s', enroll c x s = .ok (decide (c ∈ g.classes)) s' ∧ Rel (n + 1) s' (g.after (.enroll c x)) := by
  obtain ⟨st, cl, b⟩ := s
  obtain ⟨S, i, hC, hS, hI, hL, l1, l2, l3, hf⟩ := h
  simp only at hC hS hI
  unfold enroll
  rw [JM.bind_ok (onClasses_ok (lookup hC c))]
  by_cases hc : c ∈ g.classes
  · obtain ⟨h0, h1⟩ := pos_nonneg hc
    rw [if_pos (by omega)]
    obtain ⟨st', e1, hS'⟩ := add_dict hS x (by omega)
    have len1 := addKey_length (ks := S) x
    have len2 := record_length (c, x) g.enrolled
    obtain ⟨e, b', i', p1, q1, r1⟩ := link_put hI (hL.mono_right x) hc (mem_addKey.2 (.inr rfl)) (by omega) (by omega)
      (by omega)
    rw [JM.bind_ok (onStudents_ok e1), JM.bind_ok (onRegs_ok p1)]
    have ha : g.after (.enroll c x) = { g with enrolled := record (c, x) g.enrolled } := if_pos hc
    rw [ha]
    refine ⟨⟨st', cl, b'⟩, by simp only [hc, decide_true]; rfl, _, i', hC, hS', q1, r1, by simp only; omega, by omega, by simp only; omega, ?_⟩
    intro y hy
    rcases mem_addKey.1 hy with hy | rfl
    · obtain ⟨f, h1, h2⟩ := hf y hy
      exact ⟨f, mem_record.2 (.inr h1), h2⟩
    · exact ⟨(c, y), mem_record.2 (.inl rfl), rfl⟩
  · have ha : g.after (.enroll c x) = g := if_neg hc
    rw [ha]
    have : ¬ (pos g.classes c ≠ -1) := by simp [pos, hc]
    rw [if_neg this]
    exact ⟨⟨st, cl, b⟩, by simp only [hc, decide_false]; rfl, S, i, hC, hS, hI, hL, by omega, by omega, by omega, hf⟩

theorem studentsAt_ok {S : List (Option JString)} (hS : Dict st S fun _ => ()) :
    ∀ l : List (Option JString), (∀ x ∈ l, x ∈ S) → studentsAt (l.map (pos S)) ⟨st, cl, b⟩ = .ok l ⟨st, cl, b⟩
  | [], _ => rfl
  | x :: l, hl => by
    unfold studentsAt
    simp only [List.map_cons]
    rw [JM.bind_ok (onStudents_ok (keyAt hS (hl x (by simp)))),
      JM.bind_ok (studentsAt_ok hS l fun y hy => hl y (List.mem_cons_of_mem _ hy))]
    rfl

theorem classesAt_ok {C : List (Option JString)} {vs : Option JString → Option JString} (hC : Dict cl C vs) :
    ∀ l : List (Option JString), (∀ x ∈ l, x ∈ C) →
      classesAt (l.map (pos C)) ⟨st, cl, b⟩ = .ok (l.map fun c => (c, vs c)) ⟨st, cl, b⟩
  | [], _ => rfl
  | x :: l, hl => by
    unfold classesAt
    simp only [List.map_cons]
    rw [JM.bind_ok (onClasses_ok (keyAt hC (hl x (by simp)))), JM.bind_ok (onClasses_ok (valueAt hC (hl x (by simp)))),
      JM.bind_ok (classesAt_ok hC l fun y hy => hl y (List.mem_cons_of_mem _ hy))]
    rfl

theorem printStudents_rel (h : Rel n s g) (c : Option JString) :
    ∃ s', Rel n s' g ∧
      (printStudentsInClass c s = .ok (if c ∈ g.classes then
          some ⟨(g.studentsOf c).length, g.teacher c, g.studentsOf c⟩ else none) s' ∨
       printStudentsInClass c s = .err .indexOutOfBounds s' ∧ c ∈ g.classes ∧
        (((g.studentsOf c).length = 1 ∧ 16 < g.enrolled.length) ∨ (g.studentsOf c = [] ∧ 16 < g.classes.length))) := by
  obtain ⟨st, cl, b⟩ := s
  obtain ⟨S, i, hC, hS, hI, hL, l1, l2, l3, hf⟩ := h
  simp only at hC hS hI
  unfold printStudentsInClass
  rw [JM.bind_ok (onClasses_ok (lookup hC c))]
  by_cases hc : c ∈ g.classes
  · obtain ⟨h0, h1⟩ := pos_nonneg hc
    rw [if_neg (by omega), if_pos hc]
    obtain ⟨b1, i1, p1, q1, r1, k1, -⟩ := link_withKey hI hL .left (pos g.classes c)
    obtain ⟨b2, p2, q2⟩ := link_count q1 r1 (d := .left) trivial (by omega)
    obtain ⟨b3, i3, q3, r3, hw⟩ := link_walk q2 r1 (d := .left) trivial (by omega)
    rw [JM.bind_ok (onRegs_ok p1), JM.bind_ok (onClasses_ok (valueAt hC hc)), JM.bind_ok (onRegs_ok p2)]
    have hnil : ∀ k, i1.of .left k = [] ↔ i1.listOf .left .value k = [] := by
      intro k; unfold BiSpec.Ideal.listOf; rw [List.map_eq_nil_iff]
    have e : (g.enrolled.filter fun f => f.1 = c).map (fun f => pos S f.2) = (g.studentsOf c).map (pos S) := by
      unfold Register.studentsOf; rw [List.map_map]; rfl
    rw [hnil] at hw
    rw [of_length, k1, pairs_left r1 hc, e] at hw
    rw [of_length, k1, pairs_left r1 hc, e]
    refine ⟨⟨st, cl, b3⟩, ⟨S, i3, hC, hS, q3, r3, l1, l2, l3, hf⟩, ?_⟩
    rcases hw with hw | ⟨hw, hcc⟩
    · left
      rw [JM.bind_ok (onRegs_ok hw)]
      have := studentsAt_ok (cl := cl) (b := b3) hS (g.studentsOf c) (by
        intro x hx
        unfold Register.studentsOf at hx
        obtain ⟨f, g1, rfl⟩ := List.mem_map.1 hx
        exact (hL.mem f (List.mem_filter.1 g1).1).2)
      rw [JM.bind_ok this, List.length_map]
      rfl
    · right
      rw [JM.bind_err (onRegs_err hw)]
      refine ⟨rfl, hc, ?_⟩
      rcases hcc with ⟨c1, c2⟩ | ⟨c1, c2⟩
      · left; exact ⟨by simpa using c1, by omega⟩
      · right; exact ⟨by simpa using c1, by omega⟩
  · refine ⟨⟨st, cl, b⟩, ⟨S, i, hC, hS, hI, hL, l1, l2, l3, hf⟩, .inl ?_⟩
    rw [if_pos (by simp [pos, hc]), if_neg hc]; rfl

theorem printClasses_rel (h : Rel n s g) (x : Option JString) :
    ∃ s', Rel n s' g ∧
      (printClassesForStudent x s = .ok (if g.classesOf x ≠ [] then
          some ⟨(g.classesOf x).length, (g.classesOf x).map fun c => (c, g.teacher c)⟩ else none) s' ∨
       printClassesForStudent x s = .err .indexOutOfBounds s' ∧ (g.classesOf x).length = 1 ∧ 16 < g.enrolled.length) := by
  obtain ⟨st, cl, b⟩ := s
  obtain ⟨S, i, hC, hS, hI, hL, l1, l2, l3, hf⟩ := h
  simp only at hC hS hI
  unfold printClassesForStudent
  rw [JM.bind_ok (onStudents_ok (lookup hS x))]
  by_cases hx : x ∈ S
  · obtain ⟨h0, h1⟩ := pos_nonneg hx
    have hne : g.classesOf x ≠ [] := by
      obtain ⟨f, g1, g2⟩ := hf x hx
      intro h'
      unfold Register.classesOf at h'
      rw [List.map_eq_nil_iff, List.filter_eq_nil_iff] at h'
      exact h' f g1 (by simpa using g2)
    rw [if_neg (by omega), if_pos hne]
    obtain ⟨b1, i1, p1, q1, r1, k1, -⟩ := link_withKey hI hL .right (pos S x)
    have hd : i1.has .right := r1.many
    obtain ⟨b2, p2, q2⟩ := link_count q1 r1 (d := .right) hd (by omega)
    obtain ⟨b3, i3, q3, r3, hw⟩ := link_walk q2 r1 (d := .right) hd (by omega)
    rw [JM.bind_ok (onRegs_ok p1), JM.bind_ok (onRegs_ok p2)]
    have hnil : ∀ k, i1.of .right k = [] ↔ i1.listOf .right .value k = [] := by
      intro k; unfold BiSpec.Ideal.listOf; rw [List.map_eq_nil_iff]
    have e : (g.enrolled.filter fun f => f.2 = x).map (fun f => pos g.classes f.1) = (g.classesOf x).map (pos g.classes) := by
      unfold Register.classesOf; rw [List.map_map]; rfl
    rw [hnil] at hw
    rw [of_length, k1, pairs_right r1 hx, e] at hw
    rw [of_length, k1, pairs_right r1 hx, e]
    refine ⟨⟨st, cl, b3⟩, ⟨S, i3, hC, hS, q3, r3, l1, l2, l3, hf⟩, ?_⟩
    rcases hw with hw | ⟨hw, hcc⟩
    · left
      rw [JM.bind_ok (onRegs_ok hw)]
      have := classesAt_ok (st := st) (b := b3) hC (g.classesOf x) (by
        intro x' hx'
        unfold Register.classesOf at hx'
        obtain ⟨f, g1, rfl⟩ := List.mem_map.1 hx'
        exact (hL.mem f (List.mem_filter.1 g1).1).1)
      rw [JM.bind_ok this, List.length_map]
      rfl
    · right
      rw [JM.bind_err (onRegs_err hw)]
      refine ⟨rfl, ?_⟩
      rcases hcc with ⟨c1, c2⟩ | ⟨c1, c2⟩
      · exact ⟨by simpa using c1, by omega⟩
      · exact absurd (by simpa using c1) hne
  · have hnil : g.classesOf x = [] := by
      unfold Register.classesOf
      rw [List.map_eq_nil_iff, List.filter_eq_nil_iff]
      intro f hf'
      simp only [decide_eq_true_eq]
      rintro rfl
      exact hx (hL.mem f hf').2
    refine ⟨⟨st, cl, b⟩, ⟨S, i, hC, hS, hI, hL, l1, l2, l3, hf⟩, .inl ?_⟩
    rw [if_pos (by simp [pos, hx]), if_neg (by simp [hnil])]; rfl

theorem rel_succ (h : Rel n s g) : Rel (n + 1) s g := by
  obtain ⟨S, i, hC, hS, hI, hL, l1, l2, l3, hf⟩ := h
  exact ⟨S, i, hC, hS, hI, hL, by omega, by omega, by omega, hf⟩

theorem step_rel (h : Rel n s g) (c : Call) (hn : n + 32 < 2 ^ 29) :
    (SchoolRight g c (step c s).out ∨ SchoolWrong g c (step c s).out) ∧ Rel (n + 1) (step c s).state (g.after c) := by
  cases c with
  | updateClass a b =>
    obtain ⟨s', e, h'⟩ := updateClass_rel h a b hn
    have : step (.updateClass a b) s = .ok .unit s' := by unfold step; rw [JM.bind_ok e]; rfl
    rw [this]; exact ⟨.inl rfl, h'⟩
  | enroll a b =>
    obtain ⟨s', e, h'⟩ := enroll_rel h a b hn
    have : step (.enroll a b) s = .ok (.enrolled (decide (a ∈ g.classes))) s' := by unfold step; rw [JM.bind_ok e]; rfl
    rw [this]; exact ⟨.inl rfl, h'⟩
  | printStudentsInClass c =>
    obtain ⟨s', h', e | ⟨e, e1⟩⟩ := printStudents_rel h c
    · have : step (.printStudentsInClass c) s = .ok (.classReport (if c ∈ g.classes then
          some ⟨(g.studentsOf c).length, g.teacher c, g.studentsOf c⟩ else none)) s' := by
        unfold step; rw [JM.bind_ok e]; rfl
      rw [this]
      refine ⟨.inl ?_, rel_succ h'⟩
      unfold SchoolRight
      split <;> simp_all
    · have : step (.printStudentsInClass c) s = .err .indexOutOfBounds s' := by unfold step; rw [JM.bind_err e]
      rw [this]; exact ⟨.inr ⟨rfl, e1⟩, rel_succ h'⟩
  | printClassesForStudent x =>
    obtain ⟨s', h', e | ⟨e, e1⟩⟩ := printClasses_rel h x
    · have : step (.printClassesForStudent x) s = .ok (.studentReport (if g.classesOf x ≠ [] then
          some ⟨(g.classesOf x).length, (g.classesOf x).map fun c => (c, g.teacher c)⟩ else none)) s' := by
        unfold step; rw [JM.bind_ok e]; rfl
      rw [this]
      refine ⟨.inl ?_, rel_succ h'⟩
      unfold SchoolRight
      split <;> simp_all
    · have : step (.printClassesForStudent x) s = .err .indexOutOfBounds s' := by unfold step; rw [JM.bind_err e]
      rw [this]; exact ⟨.inr ⟨rfl, e1⟩, rel_succ h'⟩

theorem run_rel (h : new = .ok s) (calls : List Call) : ∀ m, m ≤ calls.length → calls.length + 32 < 2 ^ 29 →
    Rel m (runM step s (calls.take m)).2 (register (calls.take m))
  | 0, _, _ => by simpa [register, runM] using new_rel h
  | m + 1, hm, ha => by
    have ih := run_rel h calls m (by omega) ha
    have e : calls.take (m + 1) = calls.take m ++ [calls[m]] := by
      rw [List.take_add_one, List.getElem?_eq_getElem (by omega)]; rfl
    have e2 : register (calls.take m ++ [calls[m]]) = (register (calls.take m)).after calls[m] := by
      unfold register; rw [List.foldl_append]; rfl
    rw [e, e2, runM_append]
    exact (step_rel ih calls[m] (by omega)).2

end Verif.School
