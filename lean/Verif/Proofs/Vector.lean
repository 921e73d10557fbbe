import Verif.Spec.Vector
import Verif.Props.Arrays
import Verif.Trace
namespace Verif.Vec
variable {α : Type}

structure Inv (ref : Bool) (d : α) (s : Vec α) (l : List α) : Prop where
  size : s.size = l.length
  pos : s.nextPos = l.length
  room : (l.length : Int) ≤ s.values.len
  vals : ∀ i : Nat, i < l.length → l[i]? = some (s.values.get i)
  rest : ref = true → ∀ j : Int, (l.length : Int) ≤ j → j < s.values.len → s.values.get j = d

theorem inv_new {ref : Bool} {d : α} {c : Int} {s : Vec α} (h : Vec.new c d = .ok s) :
    Inv ref d s [] := by
  unfold Vec.new at h
  split at h
  · simp at h
  · simp at h; subst h
    constructor <;> simp <;> omega

theorem ensureSize_spec {ref : Bool} {d : α} {s : Vec α} {l : List α} (h : Inv ref d s l)
    {n : Int} (hn : n ≤ 1073741824) :
    ∃ s', ensureSize d n s = .ok () s' ∧ Inv ref d s' l := by
  obtain ⟨r, hr, hge, hold, hnew, hsame⟩ := Verif.ensureSize_ok s.values n d s hn
  obtain ⟨h1, h2, h3, h4, h5⟩ := h
  unfold ensureSize
  rw [JM.bind_ok (JM.get_apply _), JM.bind_ok hr]
  have hlen : (s.values.len : Int) ≤ r.len := by
    by_cases hc : n ≤ s.values.len
    · rw [hsame hc]; omega
    · omega
  refine ⟨_, rfl, h1, h2, by simp; omega, ?_, ?_⟩
  · intro i hi
    simp only [hold i (by omega) (by omega)]
    exact h4 i hi
  · intro hr j h0 h1
    simp only at h1 ⊢
    by_cases hj : j < s.values.len
    · rw [hold j (by omega) hj]; exact h5 hr j h0 hj
    · exact hnew j (by omega) h1

theorem append_spec {ref : Bool} {d v : α} {s : Vec α} {l : List α} (h : Inv ref d s l)
    (hn : (l.length : Int) < 1073741824) :
    ∃ s', append d v s = .ok () s' ∧ Inv ref d s' (l ++ [v]) := by
  obtain ⟨h1, h2, h3, h4, h5⟩ := h
  obtain ⟨r, hr, hge, hold, hnew, hsame⟩ :=
    Verif.ensureSize_ok s.values (s.nextPos + 1) d s (by omega)
  have hlen : (s.values.len : Int) ≤ r.len := by
    by_cases hc : s.nextPos + 1 ≤ s.values.len
    · rw [hsame hc]; omega
    · omega
  have hr' : ensureEntry s.values s.nextPos d s = .ok r s := by
    unfold ensureEntry; rw [i32_of_range (by omega)]; exact hr
  unfold append
  rw [JM.bind_ok (JM.get_apply _), JM.bind_ok hr', JM.bind_ok (JM.modify_apply _ _),
    JM.bind_ok (wr_ok Vec.values _ (s := { s with values := r }) (by simp; omega)),
    JM.bind_ok (JM.modify_apply _ _)]
  refine ⟨_, rfl, ?_⟩
  constructor <;> simp only [List.length_append, List.length_cons, List.length_nil, Arr.len_set]
  · omega
  · omega
  · omega
  · intro i hi
    by_cases hil : i = l.length
    · subst hil
      rw [h2]; simp
    · rw [List.getElem?_append_left (by omega), Arr.get_set_ne _ _ (by omega),
        hold i (by omega) (by omega)]
      exact h4 i (by omega)
  · intro hr j h0 h1
    rw [Arr.get_set_ne _ _ (by omega)]
    by_cases hj : j < s.values.len
    · rw [hold j (by omega) hj]; exact h5 hr j (by omega) hj
    · exact hnew j (by omega) h1

theorem forEachFrom_spec {ref : Bool} {d : α} {s : Vec α} {l : List α} (h : Inv ref d s l) :
    ∀ (n k : Nat), k + n = l.length → forEachFrom n k s = .ok (l.drop k) s := by
  obtain ⟨h1, h2, h3, h4, h5⟩ := h
  intro n
  induction n with
  | zero => intro k hk; rw [forEachFrom, List.drop_eq_nil_of_le (by omega)]; rfl
  | succ n ih =>
    intro k hk
    have := ih (k + 1) (by omega)
    have hk' : k < l.length := by omega
    have hv := h4 k hk'
    rw [List.getElem?_eq_getElem hk'] at hv
    simp at hv
    rw [forEachFrom, JM.bind_ok (rd_ok Vec.values (by omega))]
    rw [show (k : Int) + 1 = ((k + 1 : Nat) : Int) by omega, JM.bind_ok this,
      List.drop_eq_getElem_cons hk', hv]
    rfl

theorem step_spec {ref : Bool} {d : α} (s : Vec α) (l : List α) (o : Op α)
    (h : Inv ref d s l) (hb : VecSpec.Legal o l) :
    (step ref d o s).out = (VecSpec.step o l).1 ∧
      Inv ref d (step ref d o s).state (VecSpec.step o l).2 := by
  cases o with
  | append v =>
    obtain ⟨s', h1, h2⟩ := append_spec (v := v) h (by simpa [VecSpec.Legal] using hb)
    simp [step, JM.bind_apply, h1, VecSpec.step, h2]
  | ensureSize n =>
    obtain ⟨s', h1, h2⟩ := ensureSize_spec (n := n) h (by simpa [VecSpec.Legal] using hb)
    simp [step, JM.bind_apply, h1, VecSpec.step, h2]
  | valueAt i =>
    simp only [VecSpec.Legal] at hb
    have hv := h.vals i.toNat (by omega)
    have : valueAt i s = .ok (s.values.get i) s := by
      unfold valueAt
      rw [rd_ok]
      have := h.room
      omega
    have e : ((i.toNat : Nat) : Int) = i := by omega
    rw [e] at hv
    simp [step, JM.bind_apply, this, VecSpec.step, hv, h]
  | size => simp [step, JM.bind_apply, getSize, VecSpec.step, h, h.size]
  | isEmpty =>
    have : decide (s.size = 0) = l.isEmpty := by
      have := h.size
      cases l <;> simp_all
      omega
    simp [step, JM.bind_apply, isEmpty, VecSpec.step, h, this]
  | forEach =>
    have : forEach s = .ok l s := by
      unfold forEach
      rw [JM.bind_ok (JM.get_apply _)]
      have e : s.size.toNat = l.length := by have := h.size; omega
      rw [e]
      simpa using forEachFrom_spec h l.length 0 (by omega)
    simp [step, JM.bind_apply, this, VecSpec.step, h]
  | clear =>
    obtain ⟨h1, h2, h3, h4, h5⟩ := h
    have : ∃ s', clear ref d s = .ok () s' ∧ Inv ref d s' [] := by
      unfold clear
      cases ref with
      | false => refine ⟨_, rfl, ?_⟩; constructor <;> simp
      | true =>
        rw [JM.when_pos rfl, JM.bind_apply, JM.bind_ok (JM.get_apply _),
          JM.bind_ok (fill_ok _ _ (by omega))]
        refine ⟨_, rfl, ?_⟩
        constructor <;> simp
        intro j h0 hj
        rw [Arr.get_fillRange]
        by_cases hc : j < s.nextPos
        · rw [if_pos (by omega)]
        · rw [if_neg (by omega)]; exact h5 rfl j (by omega) hj
    obtain ⟨s', e1, e2⟩ := this
    simp [step, JM.bind_apply, e1, VecSpec.step, e2]

end Verif.Vec
