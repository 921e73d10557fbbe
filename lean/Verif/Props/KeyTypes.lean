import Verif.Props.IndexMap
import Verif.Model.KeyTypes
/-! # Property C42: keys of every type, in particular floating point keys -/
set_option linter.unusedSectionVars false
namespace Verif
open Index IndexSpec KeyTypes
variable {K V : Type} [Inhabited K] [Inhabited V]

theorem coherent_of_eq {K : Type} {hash : K → BitVec 32} {eq : K → K → Bool}
    (h : ∀ a b, eq a b = true → a = b) (h' : ∀ a, eq a a = true) : Coherent hash eq :=
  ⟨fun a b hab => by rw [h a b hab]; exact h' b, fun a b c hab hbc => by
    rw [h a b hab]; exact hbc, fun a b hab => by rw [h a b hab]⟩

theorem doubleEq_iff (a b : BitVec 64) : doubleEq a b = true ↔
    isNaN64 a = false ∧ isNaN64 b = false ∧ (a = b ∨ (isZero64 a = true ∧ isZero64 b = true)) := by
  simp [doubleEq, and_assoc]

theorem floatEq_iff (a b : BitVec 32) : floatEq a b = true ↔
    isNaN32 a = false ∧ isNaN32 b = false ∧ (a = b ∨ (isZero32 a = true ∧ isZero32 b = true)) := by
  simp [floatEq, and_assoc]

/-- C42: the equality and hash functions of `DoubleType` fit together (the masked hashes of 0.0 and
-0.0 coincide although the hashes do not). -/
theorem C42_double_coherent : Coherent doubleHash doubleEq := by
  refine ⟨fun a b h => ?_, fun a b c h g => ?_, fun a b h => ?_⟩
  · rw [doubleEq_iff] at h ⊢
    obtain ⟨h1, h2, h3⟩ := h
    exact ⟨h2, h1, h3.elim (fun h => .inl h.symm) (fun h => .inr ⟨h.2, h.1⟩)⟩
  · rw [doubleEq_iff] at h g ⊢
    obtain ⟨h1, h2, h3⟩ := h
    obtain ⟨g1, g2, g3⟩ := g
    refine ⟨h1, g2, ?_⟩
    rcases h3 with rfl | ⟨h3, h4⟩
    · exact g3
    · rcases g3 with rfl | ⟨g3, g4⟩
      · exact .inr ⟨h3, h4⟩
      · exact .inr ⟨h3, g4⟩
  · rw [doubleEq_iff] at h
    obtain ⟨_, _, rfl | ⟨h1, h2⟩⟩ := h
    · rfl
    · simp only [isZero64, Bool.or_eq_true, beq_iff_eq] at h1 h2
      rcases h1 with rfl | rfl <;> rcases h2 with rfl | rfl <;> decide

/-- C42: the same for `FloatType`. -/
theorem C42_float_coherent : Coherent floatHash floatEq := by
  refine ⟨fun a b h => ?_, fun a b c h g => ?_, fun a b h => ?_⟩
  · rw [floatEq_iff] at h ⊢
    obtain ⟨h1, h2, h3⟩ := h
    exact ⟨h2, h1, h3.elim (fun h => .inl h.symm) (fun h => .inr ⟨h.2, h.1⟩)⟩
  · rw [floatEq_iff] at h g ⊢
    obtain ⟨h1, h2, h3⟩ := h
    obtain ⟨g1, g2, g3⟩ := g
    refine ⟨h1, g2, ?_⟩
    rcases h3 with rfl | ⟨h3, h4⟩
    · exact g3
    · rcases g3 with rfl | ⟨g3, g4⟩
      · exact .inr ⟨h3, h4⟩
      · exact .inr ⟨h3, g4⟩
  · rw [floatEq_iff] at h
    obtain ⟨_, _, rfl | ⟨h1, h2⟩⟩ := h
    · rfl
    · simp only [isZero32, Bool.or_eq_true, beq_iff_eq] at h1 h2
      rcases h1 with rfl | rfl <;> rcases h2 with rfl | rfl <;> decide

/-- The functions of all other primitive key types fit together, so every theorem about the indexed
collections applies to them. -/
theorem C42_primitives_coherent : Coherent longHash longEq ∧ Coherent intHash intEq ∧
    Coherent shortHash shortEq ∧ Coherent charHash charEq ∧ Coherent byteHash byteEq ∧
    Coherent boolHash boolEq := by
  refine ⟨?_, ?_, ?_, ?_, ?_, ?_⟩ <;> apply coherent_of_eq <;>
    simp [longEq, intEq, shortEq, charEq, byteEq, boolEq]

/-- C42: which keys are one key: for the integer types, chars and booleans exactly identical ones; for
references null is one key, and others are one key when `equals` says so. -/
theorem C42_equality :
    (∀ a b, longEq a b = true ↔ a = b) ∧ (∀ a b, intEq a b = true ↔ a = b) ∧
    (∀ a b, shortEq a b = true ↔ a = b) ∧ (∀ a b, charEq a b = true ↔ a = b) ∧
    (∀ a b, byteEq a b = true ↔ a = b) ∧ (∀ a b, boolEq a b = true ↔ a = b) ∧
    (∀ {α : Type} (same equals : α → α → Bool), (∀ a b, same a b = true → equals a b = true) →
      objectsEq same equals none none = true ∧
      (∀ a, objectsEq same equals none (some a) = false ∧ objectsEq same equals (some a) none = false) ∧
      ∀ a b, objectsEq same equals (some a) (some b) = true ↔ equals a b = true) := by
  refine ⟨?_, ?_, ?_, ?_, ?_, ?_, ?_⟩
  iterate 6 simp [longEq, intEq, shortEq, charEq, byteEq, boolEq]
  intro α same equals h
  refine ⟨rfl, fun a => ⟨rfl, rfl⟩, fun a b => ?_⟩
  simp only [objectsEq, Bool.or_eq_true]
  exact ⟨fun h' => h'.elim (h a b) id, .inr⟩

/-- C42: a double key is found again unless it is NaN, and two non-NaN doubles are one key exactly when
their bits agree or both are zeros; the same for floats. -/
theorem C42_floating_equality :
    (∀ a, doubleEq a a = true ↔ isNaN64 a = false) ∧
    (∀ a b, isNaN64 a = false → isNaN64 b = false →
      (doubleEq a b = true ↔ a = b ∨ (a = 0#64 ∨ a = 0x8000000000000000#64) ∧
        (b = 0#64 ∨ b = 0x8000000000000000#64))) ∧
    (∀ a, floatEq a a = true ↔ isNaN32 a = false) ∧
    (∀ a b, isNaN32 a = false → isNaN32 b = false →
      (floatEq a b = true ↔ a = b ∨ (a = 0#32 ∨ a = 0x80000000#32) ∧
        (b = 0#32 ∨ b = 0x80000000#32))) := by
  refine ⟨?_, ?_, ?_, ?_⟩
  · intro a; rw [doubleEq_iff]; simp
  · intro a b ha hb; rw [doubleEq_iff]; simp [ha, hb, isZero64]
  · intro a; rw [floatEq_iff]; simp
  · intro a b ha hb; rw [floatEq_iff]; simp [ha, hb, isZero32]

/-- The functions of `GenericType` and `StringType` fit together for objects that respect the
contract of `Object.equals` and `Object.hashCode`. -/
theorem C42_objects_coherent {α : Type} {same equals : α → α → Bool} {hashCode : α → BitVec 32}
    (hsame : ∀ a b, same a b = true ↔ a = b)
    (hrefl : ∀ a, equals a a = true) (hsymm : ∀ a b, equals a b = true → equals b a = true)
    (htrans : ∀ a b c, equals a b = true → equals b c = true → equals a c = true)
    (hhash : ∀ a b, equals a b = true → hashCode a = hashCode b) :
    Coherent (objectsHash hashCode) (objectsEq same equals) := by
  have key : ∀ a b, objectsEq same equals (some a) (some b) = true ↔ equals a b = true := by
    intro a b
    simp only [objectsEq, Bool.or_eq_true, hsame]
    constructor
    · rintro (rfl | h)
      · exact hrefl _
      · exact h
    · exact .inr
  refine ⟨fun a b h => ?_, fun a b c h g => ?_, fun a b h => ?_⟩
  · cases a <;> cases b <;> first | exact h | skip
    rw [key] at h ⊢; exact hsymm _ _ h
  · cases a <;> cases b <;> first | (cases h; done) | cases c <;> first | exact g | (cases g; done) | skip
    rw [key] at h g ⊢; exact htrans _ _ _ h g
  · cases a <;> cases b <;> first | rfl | (cases h; done) | skip
    rw [key] at h
    simp only [objectsHash, hhash _ _ h]

/-- Equal keys are interchangeable in every call that takes a key and does not store it. -/
theorem C42_equal_keys {exact : Prop} {s : Index K V} {a : Abs K V} (h : Reach exact s a)
    (hc : Coherent a.hash a.eq) {k k' : K} (hk : a.eq k k' = true) :
    step (.containsKey k) s = step (.containsKey k') s ∧
    step (.lookupEntry k) s = step (.lookupEntry k') s ∧
    step (.get k) s = step (.get k') s ∧
    (∀ d, step (.getOrDefault k d) s = step (.getOrDefault k' d) s) ∧
    step (.remove k) s = step (.remove k') s := by
  obtain ⟨F, hF⟩ := reach_inv h
  have hfun : s.equalFunc k = s.equalFunc k' := by
    funext x
    rw [hF.eq, Bool.eq_iff_iff]
    exact ⟨fun hx => hc.trans _ _ _ (hc.symm _ _ hk) hx, fun hx => hc.trans _ _ _ hk hx⟩
  have hhead : computeHead k s = computeHead k' s := by
    unfold computeHead
    rw [JM.bind_ok (JM.get_apply _), JM.bind_ok (JM.get_apply _)]
    have : headOf s.hashFunc s.heads.len k = headOf s.hashFunc s.heads.len k' := by
      unfold headOf
      rw [hF.hash, hc.hash _ _ hk]
    rw [this]
  have hloop : ∀ fuel e, lookupLoop k fuel e s = lookupLoop k' fuel e s := by
    intro fuel
    induction fuel with
    | zero => intro e; rfl
    | succ n ih =>
      intro e
      unfold lookupLoop
      by_cases he : e ≥ 0
      · rw [if_pos he, if_pos he, JM.bind_apply, JM.bind_apply]
        unfold rd
        simp only
        split
        · rename_i x s' heq
          split at heq
          · cases heq
            rw [JM.bind_ok (JM.get_apply _), JM.bind_ok (JM.get_apply _), hfun]
            split
            · rfl
            · rw [JM.bind_apply, JM.bind_apply]
              simp only
              split
              · rename_i y s'' heq'
                split at heq'
                · cases heq'; exact ih _
                · cases heq'
              · rfl
          · cases heq
        · rfl
      · rw [if_neg he, if_neg he]
  have hfind : ∀ fuel p e, findKeyLoop k fuel p e s = findKeyLoop k' fuel p e s := by
    intro fuel
    induction fuel with
    | zero => intro p e; rfl
    | succ n ih =>
      intro p e
      unfold findKeyLoop
      by_cases he : e ≥ 0
      · rw [if_pos he, if_pos he, JM.bind_apply, JM.bind_apply]
        unfold rd
        simp only
        split
        · rename_i x s' heq
          split at heq
          · cases heq
            rw [JM.bind_ok (JM.get_apply _), JM.bind_ok (JM.get_apply _), hfun]
            split
            · rfl
            · rw [JM.bind_apply, JM.bind_apply]
              simp only
              split
              · rename_i y s'' heq'
                split at heq'
                · cases heq'; exact ih _ _
                · cases heq'
              · rfl
          · cases heq
        · rfl
      · rw [if_neg he, if_neg he]
  have hlook : lookupEntry k s = lookupEntry k' s := by
    obtain ⟨x, hx⟩ : ∃ x, computeHead k' s = .ok x s := ⟨_, rfl⟩
    unfold lookupEntry
    rw [JM.bind_ok (hhead.trans hx), JM.bind_ok hx, JM.bind_apply, JM.bind_apply]
    unfold rd
    simp only
    split
    · rename_i y s' heq
      split at heq
      · cases heq
        rw [JM.bind_ok (JM.get_apply _), JM.bind_ok (JM.get_apply _)]
        exact hloop _ _
      · cases heq
    · rfl
  have hrem : removeKey k true s = removeKey k' true s := by
    obtain ⟨x, hx⟩ : ∃ x, computeHead k' s = .ok x s := ⟨_, rfl⟩
    unfold removeKey
    rw [JM.bind_ok (hhead.trans hx), JM.bind_ok hx, JM.bind_apply, JM.bind_apply]
    unfold rd
    simp only
    split
    · rename_i y s' heq
      split at heq
      · cases heq
        split
        · rfl
        · rw [JM.bind_ok (JM.get_apply _), JM.bind_ok (JM.get_apply _), JM.bind_apply, JM.bind_apply,
            hfind]
      · cases heq
    · rfl
  refine ⟨?_, ?_, ?_, ?_, ?_⟩
  · simp only [step]; rw [JM.bind_apply, JM.bind_apply]; unfold containsKey
    rw [JM.bind_apply, JM.bind_apply, hlook]
  · simp only [step]; rw [JM.bind_apply, JM.bind_apply, hlook]
  · simp only [step]; rw [JM.bind_apply, JM.bind_apply]; unfold getValue
    rw [JM.bind_apply, JM.bind_apply, hlook]
  · intro d
    simp only [step]; rw [JM.bind_apply, JM.bind_apply]; unfold getOrDefault
    rw [JM.bind_apply, JM.bind_apply, hlook]
  · simp only [step]; rw [JM.bind_apply, JM.bind_apply]; unfold Index.remove
    rw [hrem]

/-- C42: a key not equal to itself is never found, never removed, and every `add` or `put` of it
makes a new entry, whatever was added before. -/
theorem C42_irreflexive_key {exact : Prop} {s : Index K V} {a : Abs K V} (h : Reach exact s a)
    (hc : Coherent a.hash a.eq) {k : K} (hk : a.eq k k = false) :
    result (.containsKey k) s = .ok (.bool false) ∧ result (.lookupEntry k) s = .ok (.int (-1)) ∧
    result (.get k) s = .error .keyNotFound ∧ step (.remove k) s = .ok (.int (-1)) s ∧
    (a.used + 29 < 2 ^ 29 → ∃ e, result (.add k) s = .ok (.int e) ∧ Fresh a e ∧
      result .size (step (.add k) s).state = .ok (.int (a.rows.length + 1))) := by
  obtain ⟨F, hF⟩ := reach_inv h
  have hf : a.find k = none := by
    rw [find_none]
    intro r _
    refine Bool.eq_false_iff.2 fun hq => ?_
    have := hc.trans _ _ _ hq (hc.symm _ _ hq)
    simp [hk] at this
  refine ⟨by rw [result_contains hF, hf]; rfl, ?_, ?_, ?_, ?_⟩
  · rw [result_lookup hF, (entryOf_eq_neg hF k).2 hf]
  · have := (step_spec hF (.get k) trivial).1
    simp only [Ok, hf] at this
    exact this
  · simp only [step]; unfold Index.remove; rw [JM.bind_ok (removeKey_absent hF hf true)]; rfl
  · intro hu
    have hg : Guard (.add k : Op K V) a := ⟨hc, by unfold Abs.used at hu; omega⟩
    obtain ⟨e, h1, h2⟩ := add_out hF hf hg
    refine ⟨e, h1, h2, ?_⟩
    obtain ⟨_, _, F', h3⟩ := step_spec hF (.add k) hg
    rw [result_size h3]
    simp only [after, hf, h1, Abs.insert, List.length_cons]
    push_cast
    rfl

/-- The bits of 0.0 and of -0.0. -/
def zero64 : BitVec 64 := 0
def negZero64 : BitVec 64 := 0x8000000000000000#64
/-- The bits of 0.0f and of -0.0f. -/
def zero32 : BitVec 32 := 0
def negZero32 : BitVec 32 := 0x80000000#32

/-- C42: in a set or map with double keys, after any history, 0.0 and -0.0 are the same key. -/
theorem C42_double_zeros {exact : Prop} {s : Index (BitVec 64) V} {a : Abs (BitVec 64) V}
    (h : Reach exact s a) (h1 : a.hash = doubleHash) (h2 : a.eq = doubleEq) :
    step (.containsKey zero64) s = step (.containsKey negZero64) s ∧
    step (.lookupEntry zero64) s = step (.lookupEntry negZero64) s ∧
    step (.get zero64) s = step (.get negZero64) s ∧
    step (.remove zero64) s = step (.remove negZero64) s := by
  have hc : Coherent a.hash a.eq := by rw [h1, h2]; exact C42_double_coherent
  have hk : a.eq zero64 negZero64 = true := by rw [h2]; decide
  obtain ⟨g1, g2, g3, _, g4⟩ := C42_equal_keys h hc hk
  exact ⟨g1, g2, g3, g4⟩

/-- C42: the same for float keys. -/
theorem C42_float_zeros {exact : Prop} {s : Index (BitVec 32) V} {a : Abs (BitVec 32) V}
    (h : Reach exact s a) (h1 : a.hash = floatHash) (h2 : a.eq = floatEq) :
    step (.containsKey zero32) s = step (.containsKey negZero32) s ∧
    step (.lookupEntry zero32) s = step (.lookupEntry negZero32) s ∧
    step (.get zero32) s = step (.get negZero32) s ∧
    step (.remove zero32) s = step (.remove negZero32) s := by
  have hc : Coherent a.hash a.eq := by rw [h1, h2]; exact C42_float_coherent
  have hk : a.eq zero32 negZero32 = true := by rw [h2]; decide
  obtain ⟨g1, g2, g3, _, g4⟩ := C42_equal_keys h hc hk
  exact ⟨g1, g2, g3, g4⟩

/-- C42: in a set or map with double keys, after any history, no NaN is ever found or removed, and
every `add` of a NaN makes a new entry. -/
theorem C42_double_nan {exact : Prop} {s : Index (BitVec 64) V} {a : Abs (BitVec 64) V}
    (h : Reach exact s a) (h1 : a.hash = doubleHash) (h2 : a.eq = doubleEq) {k : BitVec 64}
    (hk : isNaN64 k = true) :
    result (.containsKey k) s = .ok (.bool false) ∧ result (.lookupEntry k) s = .ok (.int (-1)) ∧
    result (.get k) s = .error .keyNotFound ∧ step (.remove k) s = .ok (.int (-1)) s ∧
    (a.used + 29 < 2 ^ 29 → ∃ e, result (.add k) s = .ok (.int e) ∧ Fresh a e ∧
      result .size (step (.add k) s).state = .ok (.int (a.rows.length + 1))) := by
  refine C42_irreflexive_key h (by rw [h1, h2]; exact C42_double_coherent) ?_
  rw [h2]; simp [doubleEq, hk]

/-- C42: the same for float keys. -/
theorem C42_float_nan {exact : Prop} {s : Index (BitVec 32) V} {a : Abs (BitVec 32) V}
    (h : Reach exact s a) (h1 : a.hash = floatHash) (h2 : a.eq = floatEq) {k : BitVec 32}
    (hk : isNaN32 k = true) :
    result (.containsKey k) s = .ok (.bool false) ∧ result (.lookupEntry k) s = .ok (.int (-1)) ∧
    result (.get k) s = .error .keyNotFound ∧ step (.remove k) s = .ok (.int (-1)) s ∧
    (a.used + 29 < 2 ^ 29 → ∃ e, result (.add k) s = .ok (.int e) ∧ Fresh a e ∧
      result .size (step (.add k) s).state = .ok (.int (a.rows.length + 1))) := by
  refine C42_irreflexive_key h (by rw [h1, h2]; exact C42_float_coherent) ?_
  rw [h2]; simp [floatEq, hk]

/- Non-vacuity: a double map; 1.5, -0.0 and two NaNs. -/
example : ∃ s, (Index.new doubleHash doubleEq 2 1 1 : Except Err (Index (BitVec 64) Int)) = .ok s ∧
    (runM step s [Op.put zero64 5, .put 0x3ff8000000000000#64 6, .put negZero64 7,
      .put 0x7ff8000000000000#64 8, .put 0x7ff8000000000000#64 9, .put 0xfff0000000000001#64 10,
      .get zero64, .get negZero64, .get 0x3ff8000000000000#64, .containsKey 0x7ff8000000000000#64,
      .remove negZero64, .containsKey zero64, .size]).1 =
    [.ok (.int 0), .ok (.int 1), .ok (.int 0), .ok (.int 2), .ok (.int 3), .ok (.int 4), .ok (.val 7),
      .ok (.val 7), .ok (.val 6), .ok (.bool false), .ok (.int 0), .ok (.bool false), .ok (.int 4)] ∧
    isNaN64 0x7ff8000000000000#64 = true ∧ isNaN64 0xfff0000000000001#64 = true ∧
    isNaN64 0x7ff0000000000000#64 = false :=
  ⟨_, rfl, by decide +kernel⟩

end Verif
