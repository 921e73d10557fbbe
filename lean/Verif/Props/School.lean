import Verif.Proofs.School
import Mathlib.Data.List.Induction
/-! C86: the school of the examples. -/
namespace Verif
open School CatalogSpec Convert

/-- **C86** The specification means what it should: a class is offered if its teacher was ever set, its teacher is
the last one set; a student is in a class if enrolled at some time after the class was first offered; no
student is listed twice, and the lists by class and by student agree. -/
theorem C86_meaning (calls : List Call) :
    (∀ c, c ∈ (register calls).classes ↔ ∃ t, Call.updateClass c t ∈ calls) ∧
    (∀ c t pre post, calls = pre ++ .updateClass c t :: post → (∀ t', Call.updateClass c t' ∉ post) →
      (register calls).teacher c = t) ∧
    (∀ c x, x ∈ (register calls).studentsOf c ↔
      ∃ pre post t, calls = pre ++ .enroll c x :: post ∧ Call.updateClass c t ∈ pre) ∧
    (∀ c x, x ∈ (register calls).studentsOf c ↔ c ∈ (register calls).classesOf x) ∧
    (∀ c, ((register calls).studentsOf c).Nodup) ∧ (∀ x, ((register calls).classesOf x).Nodup) := by
  have snoc : ∀ (l : List Call) (c : Call), register (l ++ [c]) = (register l).after c := by
    intro l c; unfold register; rw [List.foldl_append]; rfl
  have hcls : ∀ (l : List Call) c, c ∈ (register l).classes ↔ ∃ t, Call.updateClass c t ∈ l := by
    intro l
    induction l using List.reverseRecOn with
    | nil => simp [register]
    | append_singleton l c ih =>
      intro k
      rw [snoc]
      cases c with
      | updateClass a t =>
        have hm : k ∈ ((register l).after (.updateClass a t)).classes ↔ k ∈ (register l).classes ∨ k = a := by
          unfold Register.after
          by_cases ha : a ∈ (register l).classes
          · simp only [ha, if_true]
            constructor
            · exact .inl
            · rintro (h | rfl) <;> assumption
          · simp [ha]
        rw [hm, ih]
        simp only [List.mem_append, List.mem_singleton, Call.updateClass.injEq]
        constructor
        · rintro (⟨t', h⟩ | rfl)
          · exact ⟨t', .inl h⟩
          · exact ⟨t, .inr ⟨rfl, rfl⟩⟩
        · rintro ⟨t', h | ⟨rfl, rfl⟩⟩
          · exact .inl ⟨t', h⟩
          · exact .inr rfl
      | enroll a b =>
        have : ((register l).after (.enroll a b)).classes = (register l).classes := by
          by_cases hc : a ∈ (register l).classes <;> simp [Register.after, hc]
        rw [this, ih]; simp
      | printStudentsInClass a => simpa [Register.after] using ih k
      | printClassesForStudent a => simpa [Register.after] using ih k
  have hen : ∀ (l : List Call), (register l).enrolled.Nodup ∧ ∀ c x, (c, x) ∈ (register l).enrolled ↔
      ∃ pre post t, l = pre ++ .enroll c x :: post ∧ Call.updateClass c t ∈ pre := by
    intro l
    induction l using List.reverseRecOn with
    | nil => exact ⟨List.nodup_nil, by simp [register]⟩
    | append_singleton l d ih =>
      have grow : ∀ c x, (∃ pre post t, l ++ [d] = pre ++ .enroll c x :: post ∧ Call.updateClass c t ∈ pre) ↔
          (∃ pre post t, l = pre ++ .enroll c x :: post ∧ Call.updateClass c t ∈ pre) ∨
          (d = .enroll c x ∧ c ∈ (register l).classes) := by
        intro c x
        constructor
        · rintro ⟨pre, post, t, h1, h2⟩
          induction post using List.reverseRecOn with
          | nil =>
            have := List.append_inj' h1 rfl
            simp only [List.cons.injEq, and_true] at this
            right
            exact ⟨this.2, (hcls l c).2 ⟨t, by rw [this.1]; exact h2⟩⟩
          | append_singleton post y _ =>
            have h1' : l ++ [d] = (pre ++ .enroll c x :: post) ++ [y] := by rw [h1]; simp
            have := List.append_inj' h1' rfl
            exact .inl ⟨pre, post, t, this.1, h2⟩
        · rintro (⟨pre, post, t, h1, h2⟩ | ⟨rfl, h⟩)
          · exact ⟨pre, post ++ [d], t, by rw [h1]; simp, h2⟩
          · obtain ⟨t, ht⟩ := (hcls l c).1 h
            exact ⟨l, [], t, rfl, ht⟩
      rw [snoc]
      cases d with
      | updateClass a t =>
        refine ⟨ih.1, fun c x => ?_⟩
        rw [grow]; simpa [Register.after] using ih.2 c x
      | enroll a b =>
        have he : ((register l).after (.enroll a b)).enrolled =
            if a ∈ (register l).classes then record (a, b) (register l).enrolled else (register l).enrolled := by
          by_cases hc : a ∈ (register l).classes <;> simp [Register.after, hc]
        rw [he]
        constructor
        · split
          · unfold record
            split
            · exact ih.1
            · rename_i hf; exact List.nodup_cons.2 ⟨hf, ih.1⟩
          · exact ih.1
        · intro c x
          rw [grow, ← ih.2]
          simp only [Call.enroll.injEq]
          split
          · rename_i hc
            rw [InvertedIndex.mem_record, Prod.mk.injEq]
            constructor
            · rintro (⟨rfl, rfl⟩ | h)
              · exact .inr ⟨⟨rfl, rfl⟩, hc⟩
              · exact .inl h
            · rintro (h | ⟨⟨rfl, rfl⟩, -⟩)
              · exact .inr h
              · exact .inl ⟨rfl, rfl⟩
          · rename_i hc
            constructor
            · exact .inl
            · rintro (h | ⟨⟨rfl, rfl⟩, h⟩)
              · exact h
              · exact absurd h hc
      | printStudentsInClass a =>
        refine ⟨ih.1, fun c x => ?_⟩
        rw [grow]; simpa [Register.after] using ih.2 c x
      | printClassesForStudent a =>
        refine ⟨ih.1, fun c x => ?_⟩
        rw [grow]; simpa [Register.after] using ih.2 c x
  have hst : ∀ c x, x ∈ (register calls).studentsOf c ↔ (c, x) ∈ (register calls).enrolled := by
    intro c x
    unfold Register.studentsOf
    simp only [List.mem_map, List.mem_filter, decide_eq_true_eq]
    constructor
    · rintro ⟨⟨a, b⟩, ⟨h1, rfl⟩, rfl⟩; exact h1
    · intro h; exact ⟨_, ⟨h, rfl⟩, rfl⟩
  have hcl : ∀ c x, c ∈ (register calls).classesOf x ↔ (c, x) ∈ (register calls).enrolled := by
    intro c x
    unfold Register.classesOf
    simp only [List.mem_map, List.mem_filter, decide_eq_true_eq]
    constructor
    · rintro ⟨⟨a, b⟩, ⟨h1, rfl⟩, rfl⟩; exact h1
    · intro h; exact ⟨_, ⟨h, rfl⟩, rfl⟩
  have hteach : ∀ c t pre post, (∀ t', Call.updateClass c t' ∉ post) →
      (register (pre ++ .updateClass c t :: post)).teacher c = t := by
    intro c t pre post
    induction post using List.reverseRecOn with
    | nil => intro _; rw [snoc]; simp [Register.after]
    | append_singleton post y ih =>
      intro hp
      have e : pre ++ Call.updateClass c t :: (post ++ [y]) = (pre ++ Call.updateClass c t :: post) ++ [y] := by simp
      have ih' := ih (fun t' ht => hp t' (List.mem_append_left _ ht))
      rw [e, snoc]
      generalize register (pre ++ Call.updateClass c t :: post) = g at ih' ⊢
      cases y with
      | updateClass a t' =>
        have : c ≠ a := by rintro rfl; exact hp t' (by simp)
        simp [Register.after, this, ih']
      | enroll a b => by_cases hc : a ∈ g.classes <;> simp [Register.after, hc, ih']
      | printStudentsInClass a => exact ih'
      | printClassesForStudent a => exact ih'
  refine ⟨hcls calls, ?_, ?_, ?_, ?_, ?_⟩
  · intro c t pre post e hp
    rw [e]; exact hteach c t pre post hp
  · intro c x; rw [hst, (hen calls).2]
  · intro c x; rw [hst, hcl]
  · intro c
    unfold Register.studentsOf
    refine List.Nodup.map_on ?_ ((hen calls).1.filter _)
    intro x hx y hy hxy
    have e1 := (List.mem_filter.1 hx).2
    have e2 := (List.mem_filter.1 hy).2
    simp only [decide_eq_true_eq] at e1 e2
    exact Prod.ext (e1.trans e2.symm) hxy
  · intro c
    unfold Register.classesOf
    refine List.Nodup.map_on ?_ ((hen calls).1.filter _)
    intro x hx y hy hxy
    have e1 := (List.mem_filter.1 hx).2
    have e2 := (List.mem_filter.1 hy).2
    simp only [decide_eq_true_eq] at e1 e2
    exact Prod.ext hxy (e1.trans e2.symm)

/-- **C86** In every history (of fewer than about 2^29 calls) every call does and prints the right thing, except
that printing may throw in the two situations of `SchoolWrong`. -/
theorem C86_results_partial {s : School} (h : new = .ok s) (calls : List Call) (ha : calls.length + 32 < 2 ^ 29)
    (m : Nat) (c : Call) (hm : calls[m]? = some c) :
    ∃ r, (runM step s calls).1[m]? = some r ∧
      (SchoolRight (register (calls.take m)) c r ∨ SchoolWrong (register (calls.take m)) c r) := by
  refine ⟨_, InvertedIndex.runM_getElem step calls s m c hm, ?_⟩
  have hlt : m < calls.length := by rw [List.getElem?_eq_some_iff] at hm; exact hm.1
  exact (step_rel (run_rel h calls m (by omega) ha) c (by omega)).1

/-- **C86** With at most 16 classes and at most 16 enrolments everything is right. -/
theorem C86_small_partial {s : School} (h : new = .ok s) (calls : List Call) (ha : calls.length + 32 < 2 ^ 29)
    (m : Nat) (c : Call) (hm : calls[m]? = some c) (h1 : (register (calls.take m)).classes.length ≤ 16)
    (h2 : (register (calls.take m)).enrolled.length ≤ 16) :
    ∃ r, (runM step s calls).1[m]? = some r ∧ SchoolRight (register (calls.take m)) c r := by
  obtain ⟨r, g1, g2 | g2⟩ := C86_results_partial h calls ha m c hm
  · exact ⟨r, g1, g2⟩
  · exfalso
    cases c with
    | updateClass => exact g2
    | enroll => exact g2
    | printStudentsInClass c => rcases g2.2.2 with g | g <;> omega
    | printClassesForStudent x => have := g2.2.2; omega

/-- The results of a history on a new school. -/
def schoolResults (calls : List Call) : List (Except Err Result) :=
  match new with
  | .ok s => (runM step s calls).1
  | .error _ => []

/-- A name of one character. -/
def name (n : Nat) : Option JString := some [BitVec.ofNat 16 n]

/-- ManyToManyExample.java:24-38, the example's `main` up to its first print: six classes (here 0 to 5), ten students
(here 100 to 109), each enrolled in two different classes; `choice` is what the random generator picked. -/
def mainCalls (choice : Nat → Nat × Nat) : List Call :=
  (List.range 6).map (fun c => .updateClass (name c) (name (50 + c))) ++
  (List.range 10).flatMap (fun n => [.enroll (name (choice n).1) (name (100 + n)),
    .enroll (name (choice n).2) (name (100 + n))])

/-- **C86** is false, even for the example's own `main`: if the random generator picks the first two classes for
the first eight students, the next two for the ninth and the last two for the tenth, printing the students of
the last class throws. -/
theorem C86_main_refuted :
    (schoolResults (mainCalls (fun n => if n < 8 then (0, 1) else if n = 8 then (2, 3) else (4, 5)) ++
      [.printStudentsInClass (name 5)])).drop 26 = [.error .indexOutOfBounds] := by decide +kernel

/-- ... and a class without students cannot be printed if it is the seventeenth. -/
theorem C86_empty_class_refuted :
    (schoolResults ((List.range 17).map (fun c => .updateClass (name c) none) ++
      [.printStudentsInClass (name 15), .printStudentsInClass (name 16)])).drop 17 =
    [.ok (.classReport (some ⟨0, none, []⟩)), .error .indexOutOfBounds] := by decide +kernel

/-- A school can be created; a teacher is changed, a student enrolled twice and in a class not offered. -/
example : ∃ s, new = .ok s ∧ schoolResults [.updateClass (name 1) (name 2), .enroll (name 1) (name 9), .enroll (name 3) (name 9),
      .enroll (name 1) (name 8), .enroll (name 1) (name 9), .updateClass (name 1) (name 4),
      .printStudentsInClass (name 1), .printClassesForStudent (name 9), .printClassesForStudent (name 7),
      .printStudentsInClass (name 3)] =
    [.ok .unit, .ok (.enrolled true), .ok (.enrolled false), .ok (.enrolled true), .ok (.enrolled true), .ok .unit,
      .ok (.classReport (some ⟨2, name 4, [name 8, name 9]⟩)), .ok (.studentReport (some ⟨1, [(name 1, name 4)]⟩)),
      .ok (.studentReport none), .ok (.classReport none)] := ⟨_, rfl, by decide +kernel⟩

end Verif
