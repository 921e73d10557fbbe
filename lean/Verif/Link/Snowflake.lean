import Verif.Gen.Snowflake
import Verif.Props.Snowflake
import Verif.Props.SnowflakeIdeal
import Verif.Link.Types1
/-!
The ids of the code generated from `id/Snowflake.java`: the constructor, `nextId` and `parse` are those of the
model, for every state and every clock.  `fuel` bounds the passes of the one loop; with more than the clock has
readings left it is never used up before the clock.
-/
namespace Verif.Link.Ids
open Verif Verif.Snowflake

/-- The outcomes of `n` calls of the generated `nextId`, and the generator after. -/
def calls (fuel n : Nat) (s : Snowflake) : List (Except Err (BitVec 64)) × Snowflake :=
  runM (fun _ : Unit => Gen.Ids.Snowflake.nextId fuel) s (List.replicate n ())

/-- The object the generated constructor leaves, from whatever its memory held before. -/
def Made (node epoch : BitVec 64) (clock : List (BitVec 64)) (s : Snowflake) : Prop :=
  ∃ raw, Gen.Ids.Snowflake.init3 node epoch clock raw = .ok () s

theorem ite_run {σ α : Type} (c : Prop) [Decidable c] (m n : JM σ α) (s : σ) :
    (if c then m else n).run s = if c then m.run s else n.run s := by split <;> rfl

theorem init3_eq (node epoch : BitVec 64) (clock : List (BitVec 64)) (raw : Snowflake) :
    (Gen.Ids.Snowflake.init3 node epoch clock raw).out.map (fun _ => (Gen.Ids.Snowflake.init3 node epoch clock raw).state) =
      Snowflake.new node epoch clock := by
  unfold Gen.Ids.Snowflake.init3 Snowflake.new
  have hm : Gen.Ids.Snowflake.maxNodeId = maxNodeId := rfl
  rw [hm]
  simp only [JM.bind_apply, JM.modify_apply, ite_run, JM.throw_apply, JM.pure_apply]
  cases h1 : node.slt 0#64 <;> cases h2 : maxNodeId.slt node <;>
    simp [Except.map]

theorem made_iff {node epoch : BitVec 64} {clock : List (BitVec 64)} {s : Snowflake} :
    Made node epoch clock s ↔ Snowflake.new node epoch clock = .ok s := by
  constructor
  · rintro ⟨raw, h⟩
    rw [← init3_eq node epoch clock raw, h]; rfl
  · intro h
    refine ⟨s, ?_⟩
    have := init3_eq node epoch clock s
    rw [h] at this
    cases hr : Gen.Ids.Snowflake.init3 node epoch clock s with
    | ok u t => rw [hr] at this; simp only [Res.out_ok, Except.map, Res.state_ok, Except.ok.injEq] at this; rw [this]
    | err e t => rw [hr] at this; simp [Except.map] at this

theorem timestamp_eq : Gen.Ids.Snowflake.timestamp = Snowflake.timestamp := by
  show JM.mk _ = JM.mk _
  congr 1
  funext s
  show (Gen.Ids.Snowflake.timestamp).run s = _
  unfold Gen.Ids.Snowflake.timestamp Gen.Jdk.getAsLong
  cases h : s.clock with
  | nil => simp [JM.bind_apply, h]
  | cons c cs => simp [JM.bind_apply, h]

theorem waitLoop_eq (fuel : Nat) : ∀ (ts : BitVec 64) (s : Snowflake), s.clock.length < fuel →
    Gen.Ids.Snowflake.waitNextMillis_loop fuel ts s = Snowflake.waitNextMillis ts s := by
  induction fuel with
  | zero => intro ts s h; omega
  | succ fuel ih =>
    rintro ts ⟨n, ep, l, sq, clk⟩ h
    unfold Gen.Ids.Snowflake.waitNextMillis_loop
    rw [timestamp_eq]
    simp only [JM.bind_apply, JM.get_apply, ite_run, JM.pure_apply, beq_iff_eq]
    by_cases he : ts = l
    · rw [if_pos he]
      cases clk with
      | nil => simp only [Snowflake.timestamp, Snowflake.waitNextMillis, waitLoop, if_pos he]
      | cons c cs =>
        have := ih (c - ep) ⟨n, ep, l, sq, cs⟩ (by simp at h ⊢; omega)
        simp only [Snowflake.timestamp]
        rw [this]
        simp only [Snowflake.waitNextMillis, waitLoop, if_pos he]
        by_cases hc : c - ep = l
        · simp only [if_pos hc]
        · simp only [if_neg hc]
    · simp only [Snowflake.waitNextMillis, if_neg he]

/-- The generated `nextId` is the model's. -/
theorem nextId_eq (fuel : Nat) (s : Snowflake) (h : s.clock.length < fuel) :
    Gen.Ids.Snowflake.nextId fuel s = Snowflake.nextId s := by
  obtain ⟨n, ep, l, sq, clk⟩ := s
  unfold Gen.Ids.Snowflake.nextId Snowflake.nextId Gen.Ids.Snowflake.waitNextMillis
  rw [timestamp_eq]
  have hm : Gen.Ids.Snowflake.maxSequence = maxSequence := rfl
  rw [hm]
  cases clk with
  | nil => simp only [JM.bind_apply, Snowflake.timestamp]
  | cons c cs =>
    simp only [JM.bind_apply, Snowflake.timestamp, JM.get_apply, ite_run, JM.throw_apply, JM.modify_apply, JM.pure_apply,
      beq_iff_eq]
    rw [waitLoop_eq fuel _ _ (by simp at h ⊢; omega)]
    split
    · rfl
    · split
      · split
        · cases Snowflake.waitNextMillis _ _ <;> rfl
        · rfl
      · rfl

theorem nextId_clock (s : Snowflake) : (Snowflake.nextId s).state.clock.length ≤ s.clock.length := by
  have hw : ∀ (e l : BitVec 64) (cs : List (BitVec 64)) t cs', waitLoop e l cs = some (t, cs') → cs'.length ≤ cs.length := by
    intro e l cs
    induction cs with
    | nil => intro t cs' h; simp [waitLoop] at h
    | cons c cs ih =>
      intro t cs' h
      simp only [waitLoop] at h
      split at h
      · have := ih t cs' h; simp; omega
      · simp only [Option.some.injEq, Prod.mk.injEq] at h
        rw [← h.2]; simp
  obtain ⟨n, ep, l, sq, clk⟩ := s
  cases clk with
  | nil => simp [Snowflake.nextId, JM.bind_apply, Snowflake.timestamp]
  | cons c cs =>
    simp only [Snowflake.nextId, JM.bind_apply, Snowflake.timestamp, JM.get_apply, ite_run, JM.throw_apply,
      JM.modify_apply, JM.pure_apply]
    split
    · simp
    · split
      · split
        · rename_i h2 h3
          simp only [Snowflake.waitNextMillis, if_pos h2]
          cases hl : waitLoop ep l cs with
          | none => simp
          | some r => obtain ⟨t, cs'⟩ := r; have := hw _ _ _ _ _ hl; simp; omega
        · simp
      · simp

theorem calls_eq (fuel n : Nat) (s : Snowflake) (h : s.clock.length < fuel) : calls fuel n s = Verif.calls n s := by
  induction n generalizing s with
  | zero => rfl
  | succ n ih =>
    have e : calls fuel (n + 1) s = ((Gen.Ids.Snowflake.nextId fuel s).out ::
      (calls fuel n (Gen.Ids.Snowflake.nextId fuel s).state).1, (calls fuel n (Gen.Ids.Snowflake.nextId fuel s).state).2) := rfl
    rw [e, nextId_eq fuel s h, calls_succ, ih _ (by have := nextId_clock s; omega)]

theorem parse_eq (s : Snowflake) (id : BitVec 64) :
    Gen.Ids.Snowflake.parse id s = .ok [(parse s id).1, (parse s id).2.1, (parse s id).2.2] s := rfl

theorem new_clock {node epoch : BitVec 64} {clock : List (BitVec 64)} {s : Snowflake}
    (h : Snowflake.new node epoch clock = .ok s) : s.clock = clock := (new_inv h).2.2.2.1

/-- C23 of the generated code: ids increase strictly if and only if the clock does not step back while a call waits. -/
theorem _root_.Verif.C23_generated_exactly_partial (node epoch : BitVec 64) (clock : List (BitVec 64)) (s : Snowflake)
    (hnew : Made node epoch clock s) (hr : ∀ c ∈ clock, InRange (c - epoch)) (fuel n : Nat)
    (hf : clock.length < fuel) :
    (issued (calls fuel n s).1).Pairwise (fun a b => a.toInt < b.toInt) ↔
      ∀ k < n, ¬ WaitedBack (calls fuel k s).2 := by
  rw [made_iff] at hnew
  have hl : s.clock.length < fuel := by rw [new_clock hnew]; exact hf
  simp only [calls_eq fuel _ s hl]
  exact C23_exactly_partial node epoch clock s hnew hr n

/-- C23 of the generated code: with a clock that never runs backwards. -/
theorem _root_.Verif.C23_generated_increasing_partial (node epoch : BitVec 64) (clock : List (BitVec 64)) (s : Snowflake)
    (hnew : Made node epoch clock s) (hr : ∀ c ∈ clock, InRange (c - epoch)) (hm : Monotone epoch clock)
    (fuel n : Nat) (hf : clock.length < fuel) :
    (issued (calls fuel n s).1).Pairwise (fun a b => a.toInt < b.toInt) ∧ (issued (calls fuel n s).1).Nodup := by
  rw [made_iff] at hnew
  rw [calls_eq fuel n s (by rw [new_clock hnew]; exact hf)]
  exact C23_increasing_partial node epoch clock s hnew hr hm n

/-- C23 and C25 refuted for the generated code: an id issued twice. -/
theorem _root_.Verif.C23_generated_duplicate_refuted (node epoch : BitVec 64) (hn : node.toNat < 1024) :
    ∃ clock s, (∀ c ∈ clock, InRange (c - epoch)) ∧ Made node epoch clock s ∧
      (∃ id, ∀ fuel, clock.length < fuel → (issued (calls fuel 4098 s).1).count id ≥ 2) := by
  obtain ⟨clock, s, h1, h2, id, h3⟩ := C23_duplicate_refuted node epoch hn
  exact ⟨clock, s, h1, made_iff.2 h2, id, fun fuel hf => by
    rw [calls_eq fuel _ s (by rw [new_clock h2]; exact hf)]; exact h3⟩

/-- C24 of the generated code: `parse` of an id just issued gives the reading at which the call ended, the node and
the sequence number. -/
theorem _root_.Verif.C24_generated (s s' : Snowflake) (id : BitVec 64) (hi : Inv s) (fuel : Nat) (hf : s.clock.length < fuel)
    (h : Gen.Ids.Snowflake.nextId fuel s = .ok id s') (hr : ∀ c ∈ s.clock, InRange (c - s.customEpoch)) :
    ∃ reading seq, reading ∈ s.clock ∧ Gen.Ids.Snowflake.parse id s' = .ok [reading, s.nodeId, seq] s' ∧
      seq = s'.sequence ∧ seq.toNat < 4096 := by
  rw [nextId_eq fuel s hf] at h
  obtain ⟨r, h1, h2, h3, h4, h5⟩ := C24_parse s s' id hi h hr
  refine ⟨r, _, h1, ?_, h4, h5⟩
  rw [parse_eq, h2, h3]

/-- C25 of the generated code: a reading behind the last timestamp makes the call throw IllegalStateException,
nothing else does, and unless the millisecond is used up no successful call goes back. -/
theorem _root_.Verif.C25_generated_partial (s : Snowflake) (hi : Inv s) (fuel : Nat) (hf : s.clock.length < fuel) :
    (∀ c cs, s.clock = c :: cs → (c - s.customEpoch).toInt < s.lastTimestamp.toInt →
      Gen.Ids.Snowflake.nextId fuel s = .err .illegalState { s with clock := cs }) ∧
    (∀ s', Gen.Ids.Snowflake.nextId fuel s = .err .illegalState s' →
      ∃ c cs, s.clock = c :: cs ∧ (c - s.customEpoch).toInt < s.lastTimestamp.toInt) ∧
    (∀ id s', Gen.Ids.Snowflake.nextId fuel s = .ok id s' → s.sequence.toNat < 4095 →
      s.lastTimestamp.toInt ≤ s'.lastTimestamp.toInt) := by
  rw [nextId_eq fuel s hf]
  exact ⟨fun c cs hc hb => C25_backwards_throws s hi c cs hc hb, fun s' h => C25_only_backwards s s' hi h,
    fun id s' h hs => C25_never_earlier_partial s s' id hi h hs⟩

/-- C26 of the generated code: generators with different nodes never issue the same id; a node id is accepted if and
only if it has ten bits, and one made from a name always is, also by the factory method. -/
theorem _root_.Verif.C26_generated :
    (∀ n1 n2 e1 e2 c1 c2 s1 s2, Made n1 e1 c1 s1 → Made n2 e2 c2 s2 → n1 ≠ n2 → ∀ f1 f2 k1 k2 id,
      c1.length < f1 → c2.length < f2 → id ∈ issued (calls f1 k1 s1).1 → id ∉ issued (calls f2 k2 s2).1) ∧
    (∀ (node epoch : BitVec 64) clock raw, (∃ s, Gen.Ids.Snowflake.init3 node epoch clock raw = .ok () s) ↔
      0 ≤ node.toInt ∧ node.toInt ≤ 1023) ∧
    (∀ (node : BitVec 64) clock, Gen.Ids.Snowflake.init2 node clock =
      Gen.Ids.Snowflake.init3 node 1676731200000#64 clock) ∧
    (∀ (hash : BitVec 32) clock raw, ∃ s, Gen.Ids.Snowflake.snowflake2 clock hash raw = .ok () s ∧
      s.customEpoch = 1676731200000#64 ∧ s.nodeId.toNat = hash.toNat % 1024) := by
  have hran : ∀ (node epoch : BitVec 64) clock raw, (∃ s, Gen.Ids.Snowflake.init3 node epoch clock raw = .ok () s) ↔
      0 ≤ node.toInt ∧ node.toInt ≤ 1023 := by
    intro node epoch clock raw
    rw [← C26_node_range node epoch clock, ← init3_eq node epoch clock raw]
    cases Gen.Ids.Snowflake.init3 node epoch clock raw <;> simp [Except.map]
  refine ⟨?_, hran, fun _ _ => rfl, ?_⟩
  · intro n1 n2 e1 e2 c1 c2 s1 s2 h1 h2 hne f1 f2 k1 k2 id hf1 hf2
    rw [made_iff] at h1 h2
    rw [calls_eq f1 k1 s1 (by rw [new_clock h1]; exact hf1), calls_eq f2 k2 s2 (by rw [new_clock h2]; exact hf2)]
    exact C26_nodes_disjoint n1 n2 e1 e2 c1 c2 s1 s2 h1 h2 hne k1 k2 id
  · intro hash clock raw
    have hnat : (Gen.Ids.Snowflake.createNodeId hash).toNat = hash.toNat % 1024 := by
      have h : (createNodeId hash).toNat = (hash.signExtend 64).toNat % 2 ^ 10 := and_mask_toNat _ 10 (by omega)
      have h' : (hash.signExtend 64).toNat % 2 ^ 10 = hash.toNat % 1024 := by
        rw [BitVec.toNat_signExtend]
        simp only [BitVec.toNat_setWidth]
        have := hash.isLt
        split <;> omega
      rw [← h', ← h]; rfl
    have := (hran (Gen.Ids.Snowflake.createNodeId hash) 1676731200000#64 clock raw).2
      (by have := toInt_nat (Gen.Ids.Snowflake.createNodeId hash); omega)
    obtain ⟨s, hs⟩ := this
    refine ⟨s, hs, ?_, ?_⟩
    · have := made_iff.1 ⟨raw, hs⟩
      exact (new_inv this).2.2.1
    · rw [← hnat]
      have := made_iff.1 ⟨raw, hs⟩
      rw [(new_inv this).2.1]

/-- C88 of the generated code: a call waits only when the millisecond is used up, and 4096 ids of a millisecond come
without waiting. -/
theorem _root_.Verif.C88_generated (s : Snowflake) (hi : Inv s) (fuel : Nat) (hf : s.clock.length < fuel) (c : BitVec 64) :
    (∀ cs, s.clock = c :: cs →
      (¬ (c - s.customEpoch = s.lastTimestamp ∧ s.sequence = 4095#64) →
        (Gen.Ids.Snowflake.nextId fuel s).state.clock = cs) ∧
      (∀ (j : Nat) (r : BitVec 64) (rest : List (BitVec 64)), c - s.customEpoch = s.lastTimestamp →
        s.sequence = 4095#64 → cs = List.replicate j c ++ r :: rest → r ≠ c →
        ∃ id, (Gen.Ids.Snowflake.nextId fuel s).out = .ok id ∧ (Gen.Ids.Snowflake.nextId fuel s).state.clock = rest ∧
          (Gen.Ids.Snowflake.nextId fuel s).state.lastTimestamp = r - s.customEpoch)) ∧
    (s.lastTimestamp.toInt < (c - s.customEpoch).toInt → ∀ n ≤ 4096, ∀ rest,
      s.clock = List.replicate n c ++ rest →
      (calls fuel n s).1 = (List.range n).map (fun i => .ok (compose (c - s.customEpoch) s.nodeId (BitVec.ofNat 64 i))) ∧
      (calls fuel n s).2.clock = rest) := by
  rw [nextId_eq fuel s hf]
  refine ⟨fun cs hc => C88_waits_only_when_used_up s hi c cs hc, fun hl n hn rest hc => ?_⟩
  rw [calls_eq fuel n s hf]
  exact C88_full_millisecond s hi c hl n hn rest hc

/-- C103 of the generated code: it is the generator of mathematical integers. -/
theorem _root_.Verif.C103_generated (node epoch : BitVec 64) (clock : List (BitVec 64)) (s : Snowflake)
    (hnew : Made node epoch clock s) (hr : ∀ c ∈ clock, InRange (c - epoch)) (fuel n : Nat)
    (hf : clock.length < fuel) :
    (calls fuel n s).1.map (fun o => o.map BitVec.toInt) =
      SnowflakeSpec.nexts node.toNat n ⟨-1, 0, clock.map (fun c => (c - epoch).toInt)⟩ := by
  rw [made_iff] at hnew
  rw [calls_eq fuel n s (by rw [new_clock hnew]; exact hf)]
  exact C103_ideal node epoch clock s hnew hr n

/-- Three ids of the generated code, parsed back. -/
example : ∃ s, Made 7#64 100#64 [105#64, 105#64, 106#64] s ∧
    issued (calls 9 3 s).1 = [compose 5#64 7#64 0#64, compose 5#64 7#64 1#64, compose 6#64 7#64 0#64] ∧
    (Gen.Ids.Snowflake.parse (compose 5#64 7#64 1#64) s).out = .ok [105#64, 7#64, 1#64] ∧ Inv s ∧
    (∀ c ∈ [105#64, 105#64, 106#64], InRange (c - 100#64)) :=
  ⟨_, ⟨⟨0, 0, 0, 0, []⟩, rfl⟩, by decide +kernel, congrArg Except.ok (by decide +kernel), ⟨by decide, by decide⟩, by
    intro c hc
    simp only [List.mem_cons, List.not_mem_nil, or_false] at hc
    rcases hc with rfl | rfl | rfl <;> unfold InRange <;> decide⟩

end Verif.Link.Ids
