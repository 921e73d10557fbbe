import Verif.Model.Snowflake
import Verif.Trace
namespace Verif.Snowflake
open Verif

theorem compose_toNat {ts node seq : BitVec 64} (hn : node.toNat < 1024) (hs : seq.toNat < 4096) :
    (compose ts node seq).toNat =
      (ts.toNat % 2 ^ 42) * 2 ^ 22 + (node.toNat * 2 ^ 12 + seq.toNat) := by
  unfold compose
  rw [BitVec.toNat_or, BitVec.toNat_or, BitVec.toNat_shiftLeft, BitVec.toNat_shiftLeft,
    Nat.shiftLeft_eq, Nat.shiftLeft_eq]
  have e1 : ts.toNat * 2 ^ 22 % 2 ^ 64 = (ts.toNat % 2 ^ 42) * 2 ^ 22 := by
    rw [show (2:Nat) ^ 64 = 2 ^ 42 * 2 ^ 22 from rfl, Nat.mul_mod_mul_right]
  have e2 : node.toNat * 2 ^ 12 % 2 ^ 64 = node.toNat * 2 ^ 12 :=
    Nat.mod_eq_of_lt (Nat.lt_of_lt_of_le (Nat.mul_lt_mul_of_pos_right hn (by decide)) (by decide))
  rw [e1, e2, Nat.or_assoc]
  have h1 := Nat.shiftLeft_add_eq_or_of_lt (i := 12) (b := seq.toNat) (by omega) node.toNat
  rw [Nat.shiftLeft_eq] at h1
  rw [← h1]
  have h2 := Nat.shiftLeft_add_eq_or_of_lt (i := 22) (b := node.toNat * 2 ^ 12 + seq.toNat)
    (by omega) (ts.toNat % 2 ^ 42)
  rw [Nat.shiftLeft_eq] at h2
  rw [← h2]

/-- A timestamp that fits in 41 bits and a sign. -/
def InRange (t : BitVec 64) : Prop := -2 ^ 41 ≤ t.toInt ∧ t.toInt < 2 ^ 41

theorem toInt_nat (x : BitVec 64) :
    (x.toInt = x.toNat ∧ x.toNat < 2 ^ 63) ∨ (x.toInt = x.toNat - 2 ^ 64 ∧ 2 ^ 63 ≤ x.toNat) := by
  rw [BitVec.toInt_eq_toNat_cond]
  have := x.isLt
  split <;> omega

theorem compose_toInt {ts node seq : BitVec 64} (hn : node.toNat < 1024) (hs : seq.toNat < 4096)
    (hr : InRange ts) :
    (compose ts node seq).toInt = ts.toInt * 2 ^ 22 + node.toNat * 2 ^ 12 + seq.toNat := by
  have h := compose_toNat (ts := ts) hn hs
  have h1 := toInt_nat ts
  have h2 := toInt_nat (compose ts node seq)
  have := ts.isLt
  unfold InRange at hr
  omega

theorem maxSequence_eq : maxSequence = 4095#64 := by decide
theorem maxNodeId_eq : maxNodeId = 1023#64 := by decide

theorem and_mask_toNat (x : BitVec 64) (k : Nat) (hk : k < 64) :
    (x &&& BitVec.ofNat 64 (2 ^ k - 1)).toNat = x.toNat % 2 ^ k := by
  rw [BitVec.toNat_and, BitVec.toNat_ofNat, Nat.mod_eq_of_lt, Nat.and_two_pow_sub_one_eq_mod]
  have : 2 ^ k < 2 ^ 64 := Nat.pow_lt_pow_right (by omega) hk
  omega

theorem and_seq (x : BitVec 64) : (x &&& maxSequence).toNat = x.toNat % 4096 :=
  and_mask_toNat x 12 (by omega)

/-- What the constructor guarantees and `nextId` keeps. -/
structure Inv (s : Snowflake) : Prop where
  node : s.nodeId.toNat < 1024
  seq : s.sequence.toNat < 4096

theorem new_inv {node epoch : BitVec 64} {clock : List (BitVec 64)} {s : Snowflake}
    (h : Snowflake.new node epoch clock = .ok s) :
    Inv s ∧ s.nodeId = node ∧ s.customEpoch = epoch ∧ s.clock = clock ∧
      s.lastTimestamp = -1#64 ∧ s.sequence = 0#64 := by
  unfold Snowflake.new at h
  split at h
  · simp at h
  · rename_i hc
    simp only [Except.ok.injEq] at h
    subst h
    refine ⟨⟨?_, by simp⟩, rfl, rfl, rfl, rfl, rfl⟩
    rw [maxNodeId_eq] at hc
    simp only [BitVec.slt, BitVec.toInt_zero, decide_eq_true_eq] at hc
    have h1 := toInt_nat node
    have h2 : (1023#64).toInt = 1023 := by decide
    simp only
    omega

/-- The four outcomes of a call. -/
theorem nextId_cases {s : Snowflake} (hi : Inv s) {c : BitVec 64} {cs : List (BitVec 64)}
    (hc : s.clock = c :: cs) :
    ((c - s.customEpoch).toInt < s.lastTimestamp.toInt ∧
      nextId s = .err .illegalState { s with clock := cs }) ∨
    (c - s.customEpoch = s.lastTimestamp ∧ s.sequence.toNat < 4095 ∧
      nextId s = .ok (compose (c - s.customEpoch) s.nodeId (s.sequence + 1#64))
        { s with clock := cs, sequence := s.sequence + 1#64 }) ∨
    (c - s.customEpoch = s.lastTimestamp ∧ s.sequence.toNat = 4095 ∧
      ((waitLoop s.customEpoch s.lastTimestamp cs = none ∧
          nextId s = .err .diverge { s with clock := [], sequence := 0#64 }) ∨
       ∃ t cs', waitLoop s.customEpoch s.lastTimestamp cs = some (t, cs') ∧
          nextId s = .ok (compose t s.nodeId 0#64)
            { s with clock := cs', sequence := 0#64, lastTimestamp := t })) ∨
    (s.lastTimestamp.toInt < (c - s.customEpoch).toInt ∧
      nextId s = .ok (compose (c - s.customEpoch) s.nodeId 0#64)
        { s with clock := cs, sequence := 0#64, lastTimestamp := c - s.customEpoch }) := by
  obtain ⟨node, epoch, last, seq, clock⟩ := s
  simp only at hc
  subst hc
  have ht : timestamp ⟨node, epoch, last, seq, c :: cs⟩ =
      .ok (c - epoch) ⟨node, epoch, last, seq, cs⟩ := rfl
  unfold nextId
  rw [JM.bind_ok ht, JM.bind_ok (JM.get_apply _)]
  simp only
  by_cases h1 : (c - epoch).slt last
  · left
    rw [if_pos h1]
    exact ⟨by simpa [BitVec.slt] using h1, rfl⟩
  · right
    rw [if_neg h1]
    have h1' : ¬ (c - epoch).toInt < last.toInt := by simpa [BitVec.slt] using h1
    by_cases h2 : c - epoch = last
    · have hs := hi.seq
      simp only at hs
      have hadd : (seq + 1#64).toNat = seq.toNat + 1 := by
        rw [BitVec.toNat_add]; simp; omega
      have hand : ((seq + 1#64) &&& maxSequence).toNat = (seq.toNat + 1) % 4096 := by
        rw [and_seq, hadd]
      rw [if_pos h2, JM.bind_ok (JM.modify_apply _ _), JM.bind_ok (JM.get_apply _)]
      simp only
      by_cases h3 : seq.toNat = 4095
      · right; left
        have hz : (seq + 1#64) &&& maxSequence = 0#64 := by
          apply BitVec.eq_of_toNat_eq; rw [hand, h3]; rfl
        rw [if_pos hz]
        refine ⟨h2, h3, ?_⟩
        cases hw : waitLoop epoch last cs with
        | none =>
          left
          refine ⟨rfl, ?_⟩
          apply JM.bind_err
          simp [waitNextMillis, h2, hw, hz]
        | some p =>
          obtain ⟨t, cs'⟩ := p
          right
          refine ⟨t, cs', rfl, ?_⟩
          rw [hz]
          have : waitNextMillis (c - epoch) ⟨node, epoch, last, 0#64, cs⟩ =
              .ok t ⟨node, epoch, last, 0#64, cs'⟩ := by
            simp [waitNextMillis, h2, hw]
          rw [JM.bind_ok this]
          rfl
      · left
        have hz : (seq + 1#64) &&& maxSequence = seq + 1#64 := by
          apply BitVec.eq_of_toNat_eq; rw [hand, hadd]; omega
        have hnz : ¬ (seq + 1#64 = 0#64) := by
          intro h; have := congrArg BitVec.toNat h; rw [hadd] at this; simp at this
        rw [hz, if_neg hnz]
        refine ⟨h2, by omega, ?_⟩
        rw [JM.bind_ok (JM.modify_apply _ _), JM.bind_ok (JM.get_apply _)]
        simp [h2]
    · right; right
      rw [if_neg h2]
      refine ⟨?_, rfl⟩
      have : (c - epoch).toInt ≠ last.toInt := fun h => h2 (BitVec.eq_of_toInt_eq h)
      omega

theorem nextId_empty {s : Snowflake} (hc : s.clock = []) : nextId s = .err .diverge s := by
  unfold nextId
  apply JM.bind_err
  simp [timestamp, hc]

theorem waitLoop_some {epoch last : BitVec 64} {cs cs' : List (BitVec 64)} {t : BitVec 64}
    (h : waitLoop epoch last cs = some (t, cs')) :
    t ≠ last ∧ ∃ pre r, cs = pre ++ r :: cs' ∧ t = r - epoch := by
  induction cs with
  | nil => simp [waitLoop] at h
  | cons c cs ih =>
    simp only [waitLoop] at h
    split at h
    · obtain ⟨h1, pre, r, h2, h3⟩ := ih h
      exact ⟨h1, c :: pre, r, by rw [h2]; rfl, h3⟩
    · simp only [Option.some.injEq, Prod.mk.injEq] at h
      obtain ⟨rfl, rfl⟩ := h
      exact ⟨by assumption, [], c, rfl, rfl⟩

/-- Everything a successful call does, except that it may not advance (see `C23`). -/
theorem nextId_ok {s s' : Snowflake} {id : BitVec 64} (hi : Inv s) (h : nextId s = .ok id s') :
    id = compose s'.lastTimestamp s'.nodeId s'.sequence ∧ Inv s' ∧ s'.nodeId = s.nodeId ∧
    s'.customEpoch = s.customEpoch ∧
    (∃ pre r, s.clock = pre ++ r :: s'.clock ∧ s'.lastTimestamp = r - s.customEpoch) := by
  cases hc : s.clock with
  | nil => rw [nextId_empty hc] at h; simp at h
  | cons c cs =>
    rcases nextId_cases hi hc with ⟨_, e⟩ | ⟨h1, h2, e⟩ | ⟨h1, h2, ⟨_, e⟩ | ⟨t, cs', hw, e⟩⟩ | ⟨h1, e⟩
    · rw [e] at h; simp at h
    · rw [e] at h
      simp only [Res.ok.injEq] at h
      obtain ⟨rfl, rfl⟩ := h
      have hadd : (s.sequence + 1#64).toNat = s.sequence.toNat + 1 := by
        rw [BitVec.toNat_add]; simp; omega
      refine ⟨by rw [h1], ⟨hi.node, by simp only; omega⟩, rfl, rfl, [], c, rfl, h1.symm⟩
    · rw [e] at h; simp at h
    · rw [e] at h
      simp only [Res.ok.injEq] at h
      obtain ⟨rfl, rfl⟩ := h
      obtain ⟨_, pre, r, hp, hr⟩ := waitLoop_some hw
      exact ⟨rfl, ⟨hi.node, by simp⟩, rfl, rfl, c :: pre, r, by rw [hp]; rfl, hr⟩
    · rw [e] at h
      simp only [Res.ok.injEq] at h
      obtain ⟨rfl, rfl⟩ := h
      exact ⟨rfl, ⟨hi.node, by simp⟩, rfl, rfl, [], c, rfl, rfl⟩

/-- A call that throws keeps node, epoch and last timestamp, and the invariant. -/
theorem nextId_err {s s' : Snowflake} {e : Err} (hi : Inv s) (h : nextId s = .err e s') :
    Inv s' ∧ s'.nodeId = s.nodeId ∧ s'.customEpoch = s.customEpoch ∧
    s'.lastTimestamp = s.lastTimestamp ∧
    ((e = .illegalState ∧ s'.sequence = s.sequence ∧ ∃ c, s.clock = c :: s'.clock ∧
        (c - s.customEpoch).toInt < s.lastTimestamp.toInt) ∨ (e = .diverge ∧ s'.clock = [])) := by
  cases hc : s.clock with
  | nil =>
    rw [nextId_empty hc] at h
    simp only [Res.err.injEq] at h
    obtain ⟨rfl, rfl⟩ := h
    exact ⟨hi, rfl, rfl, rfl, .inr ⟨rfl, hc⟩⟩
  | cons c cs =>
    rcases nextId_cases hi hc with ⟨h1, e⟩ | ⟨h1, h2, e⟩ | ⟨h1, h2, ⟨_, e⟩ | ⟨t, cs', hw, e⟩⟩ | ⟨h1, e⟩ <;>
      rw [e] at h
    · simp only [Res.err.injEq] at h
      obtain ⟨rfl, rfl⟩ := h
      exact ⟨⟨hi.node, hi.seq⟩, rfl, rfl, rfl, .inl ⟨rfl, rfl, c, rfl, h1⟩⟩
    · simp at h
    · simp only [Res.err.injEq] at h
      obtain ⟨rfl, rfl⟩ := h
      exact ⟨⟨hi.node, by simp⟩, rfl, rfl, rfl, .inr ⟨rfl, rfl⟩⟩
    · simp at h
    · simp at h

/-- The value a state's last id has, or a lower bound before the first. -/
def mark (s : Snowflake) : Int :=
  s.lastTimestamp.toInt * 2 ^ 22 + s.nodeId.toNat * 2 ^ 12 + s.sequence.toNat

/-- The readings left are within range. -/
def ClockInRange (s : Snowflake) : Prop := ∀ c ∈ s.clock, InRange (c - s.customEpoch)

theorem nextId_mark {s s' : Snowflake} {id : BitVec 64} (hi : Inv s) (hr : ClockInRange s)
    (hok : nextId s = .ok id s')
    (hw : s.sequence.toNat = 4095 → s.lastTimestamp.toInt ≤ s'.lastTimestamp.toInt) :
    id.toInt = mark s' ∧ mark s < mark s' ∧ ClockInRange s' ∧ InRange s'.lastTimestamp := by
  obtain ⟨h1, h2, h3, h4, pre, r, h5, h6⟩ := nextId_ok hi hok
  have hr' : ClockInRange s' := by
    intro c hc
    rw [h4]
    exact hr c (by rw [h5]; simp [hc])
  have hl' : InRange s'.lastTimestamp := by
    rw [h6]; exact hr r (by rw [h5]; simp)
  refine ⟨by rw [h1, compose_toInt h2.node h2.seq hl']; rfl, ?_, hr', hl'⟩
  unfold mark
  rw [h3]
  cases hc : s.clock with
  | nil => rw [nextId_empty hc] at hok; simp at hok
  | cons c cs =>
    have hseq := hi.seq
    rcases nextId_cases hi hc with ⟨_, e⟩ | ⟨g1, g2, e⟩ | ⟨g1, g2, ⟨_, e⟩ | ⟨t, cs', hwl, e⟩⟩ | ⟨g1, e⟩ <;>
      rw [e] at hok
    · simp at hok
    · simp only [Res.ok.injEq] at hok
      obtain ⟨rfl, rfl⟩ := hok
      have hadd : (s.sequence + 1#64).toNat = s.sequence.toNat + 1 := by
        rw [BitVec.toNat_add]; simp; omega
      simp only; omega
    · simp at hok
    · simp only [Res.ok.injEq] at hok
      obtain ⟨rfl, rfl⟩ := hok
      have hne := (waitLoop_some hwl).1
      have : t.toInt ≠ s.lastTimestamp.toInt := fun h => hne (BitVec.eq_of_toInt_eq h)
      have := hw g2
      simp only at this ⊢
      simp; omega
    · simp only [Res.ok.injEq] at hok
      obtain ⟨rfl, rfl⟩ := hok
      have z : (0#64).toNat = 0 := rfl
      simp only [z]; omega

end Verif.Snowflake
