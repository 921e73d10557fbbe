import Verif.Proofs.Snowflake
/-! # Properties C23 - C26: Snowflake ids -/
namespace Verif
open Snowflake

/-- The outcomes of `n` consecutive calls of `nextId` on a generator, and the generator after. -/
def calls (n : Nat) (s : Snowflake) : List (Except Err (BitVec 64)) × Snowflake :=
  runM (fun _ : Unit => nextId) s (List.replicate n ())

/-- The ids among a list of outcomes. -/
def issued : List (Except Err (BitVec 64)) → List (BitVec 64)
  | [] => []
  | .ok id :: os => id :: issued os
  | .error _ :: os => issued os

theorem calls_succ (n : Nat) (s : Snowflake) :
    calls (n + 1) s = ((nextId s).out :: (calls n (nextId s).state).1,
      (calls n (nextId s).state).2) := rfl

theorem issued_no_clock (n : Nat) (s : Snowflake) (h : s.clock = []) :
    issued (calls n s).1 = [] := by
  induction n with
  | zero => rfl
  | succ n ih => rw [calls_succ, nextId_empty h]; exact ih

/-- The induction behind both increasing-id theorems. -/
theorem issued_increasing (J : Nat → Snowflake → Prop)
    (hJ : ∀ n s, J (n + 1) s → Inv s ∧ ClockInRange s ∧
      (∀ id s', nextId s = .ok id s' →
        (s.sequence.toNat = 4095 → s.lastTimestamp.toInt ≤ s'.lastTimestamp.toInt) ∧ J n s') ∧
      (∀ e s', nextId s = .err e s' → J n s'))
    (n : Nat) (s : Snowflake) (h : J n s) :
    (∀ id ∈ issued (calls n s).1, mark s < id.toInt) ∧
    (issued (calls n s).1).Pairwise (fun a b => a.toInt < b.toInt) := by
  induction n generalizing s with
  | zero => exact ⟨by simp [calls, runM, issued], .nil⟩
  | succ n ih =>
    obtain ⟨hi, hr, hok, herr⟩ := hJ n s h
    rw [calls_succ]
    cases hn : nextId s with
    | ok id s' =>
      obtain ⟨h1, h2, _⟩ := nextId_mark hi hr hn (hok _ _ hn).1
      obtain ⟨g1, g2⟩ := ih s' (hok _ _ hn).2
      simp only [Res.out_ok, Res.state_ok, issued]
      refine ⟨?_, .cons (fun a ha => by rw [h1]; exact g1 a ha) g2⟩
      intro x hx
      rcases List.mem_cons.1 hx with rfl | hx
      · omega
      · have := g1 x hx; omega
    | err e s' =>
      obtain ⟨g1, g2⟩ := ih s' (herr _ _ hn)
      simp only [Res.out_err, Res.state_err, issued]
      refine ⟨?_, g2⟩
      obtain ⟨_, e1, _, e2, h⟩ := nextId_err hi hn
      rcases h with ⟨_, e3, _⟩ | ⟨_, hc⟩
      · intro x hx
        have := g1 x hx
        unfold mark at this ⊢
        rw [e1, e2, e3] at this
        exact this
      · rw [issued_no_clock n s' hc]; simp

/-- The clock never runs backwards. -/
def Monotone (epoch : BitVec 64) (clock : List (BitVec 64)) : Prop :=
  clock.Pairwise fun a b => (a - epoch).toInt ≤ (b - epoch).toInt

/-- C23 (partial: the clock never runs backwards; `C23_duplicate_refuted` shows a clock for which the
full statement fails): for every node id, epoch, stall pattern of the clock and number of calls, the
ids issued are strictly increasing, hence distinct. -/
theorem C23_increasing_partial (node epoch : BitVec 64) (clock : List (BitVec 64)) (s : Snowflake)
    (hnew : Snowflake.new node epoch clock = .ok s)
    (hr : ∀ c ∈ clock, InRange (c - epoch)) (hm : Monotone epoch clock) (n : Nat) :
    (issued (calls n s).1).Pairwise (fun a b => a.toInt < b.toInt) ∧
    (issued (calls n s).1).Nodup := by
  obtain ⟨hi, _, he, hc, _, _⟩ := new_inv hnew
  have key := issued_increasing
    (fun _ s => Inv s ∧ ClockInRange s ∧ Monotone s.customEpoch s.clock) (by
      rintro n s ⟨hi, hr, hm⟩
      refine ⟨hi, hr, ?_, ?_⟩
      · intro id s' hn
        obtain ⟨_, h2, _, h4, pre, r, h5, h6⟩ := nextId_ok hi hn
        have hr' : ClockInRange s' := by
          intro c hc; rw [h4]; exact hr c (by rw [h5]; simp [hc])
        have hm' : Monotone s'.customEpoch s'.clock := by
          unfold Monotone at hm ⊢
          rw [h5] at hm
          rw [h4]
          exact (List.pairwise_cons.1 (List.pairwise_append.1 hm).2.1).2
        refine ⟨?_, h2, hr', hm'⟩
        intro hseq
        -- the last reading is at least the first one, which equals the last timestamp
        cases hc : s.clock with
        | nil => rw [nextId_empty hc] at hn; simp at hn
        | cons c cs =>
          have hge : (c - s.customEpoch).toInt ≤ s'.lastTimestamp.toInt := by
            rw [h6]
            cases pre with
            | nil =>
              rw [hc] at h5
              simp only [List.nil_append, List.cons.injEq] at h5
              rw [h5.1]; exact Int.le_refl _
            | cons p pre =>
              unfold Monotone at hm
              rw [h5] at hm
              rw [hc] at h5
              simp only [List.cons_append, List.cons.injEq] at h5
              rw [h5.1]
              exact (List.pairwise_cons.1 hm).1 r (by simp)
          rcases nextId_cases hi hc with ⟨_, e⟩ | ⟨g1, g2, e⟩ | ⟨g1, _⟩ | ⟨g1, _⟩
          · rw [e] at hn; simp at hn
          · omega
          · rw [← g1]; exact hge
          · omega
      · intro e s' hn
        obtain ⟨h1, _, h3, _, h⟩ := nextId_err hi hn
        rcases h with ⟨_, _, c, hc, _⟩ | ⟨_, hc⟩
        · refine ⟨h1, ?_, ?_⟩
          · intro x hx; rw [h3]; exact hr x (by rw [hc]; simp [hx])
          · unfold Monotone at hm ⊢
            rw [hc] at hm; rw [h3]
            exact (List.pairwise_cons.1 hm).2
        · exact ⟨h1, by intro x hx; rw [hc] at hx; simp at hx, by rw [hc]; exact .nil⟩)
    n s ⟨hi, by intro c h; rw [he]; exact hr c (hc ▸ h), by rw [he, hc]; exact hm⟩
  exact ⟨key.2, key.2.imp (fun h e => by rw [e] at h; omega)⟩

/-- C23 for *every* clock, also one that jumps backwards, as long as no more than 4095 calls are made
(so that no millisecond's sequence can be used up): strictly increasing. -/
theorem C23_any_clock_partial (node epoch : BitVec 64) (clock : List (BitVec 64)) (s : Snowflake)
    (hnew : Snowflake.new node epoch clock = .ok s)
    (hr : ∀ c ∈ clock, InRange (c - epoch)) (n : Nat) (hn : n ≤ 4095) :
    (issued (calls n s).1).Pairwise (fun a b => a.toInt < b.toInt) := by
  obtain ⟨hi, _, he, hc, _, hs⟩ := new_inv hnew
  refine (issued_increasing
    (fun n s => Inv s ∧ ClockInRange s ∧ s.sequence.toNat + n ≤ 4095) ?_ n s
    ⟨hi, by intro c h; rw [he]; exact hr c (hc ▸ h), by rw [hs]; simpa using hn⟩).2
  rintro n s ⟨hi, hr, hb⟩
  refine ⟨hi, hr, ?_, ?_⟩
  · intro id s' hok
    obtain ⟨_, h2, _, h4, pre, r, h5, h6⟩ := nextId_ok hi hok
    refine ⟨by intro h; omega, h2, ?_, ?_⟩
    · intro c hc; rw [h4]; exact hr c (by rw [h5]; simp [hc])
    · cases hc : s.clock with
      | nil => rw [nextId_empty hc] at hok; simp at hok
      | cons c cs =>
        rcases nextId_cases hi hc with ⟨_, e⟩ | ⟨g1, g2, e⟩ | ⟨g1, g2, _⟩ | ⟨g1, e⟩
        · rw [e] at hok; simp at hok
        · rw [e] at hok
          simp only [Res.ok.injEq] at hok
          obtain ⟨rfl, rfl⟩ := hok
          have hadd : (s.sequence + 1#64).toNat = s.sequence.toNat + 1 := by
            rw [BitVec.toNat_add]; simp; omega
          simp only; omega
        · omega
        · rw [e] at hok
          simp only [Res.ok.injEq] at hok
          obtain ⟨rfl, rfl⟩ := hok
          have z : (0#64).toNat = 0 := rfl
          simp only [z]; omega
  · intro e s' herr
    obtain ⟨h1, _, h3, _, h⟩ := nextId_err hi herr
    rcases h with ⟨_, hs', c, hc, _⟩ | ⟨_, hc⟩
    · exact ⟨h1, by intro x hx; rw [h3]; exact hr x (by rw [hc]; simp [hx]), by rw [hs']; omega⟩
    · refine ⟨h1, by intro x hx; rw [hc] at hx; simp at hx, ?_⟩
      cases hcl : s.clock with
      | nil =>
        rw [nextId_empty hcl] at herr
        simp only [Res.err.injEq] at herr
        rw [← herr.2]; omega
      | cons c cs =>
        rcases nextId_cases hi hcl with ⟨_, e⟩ | ⟨g1, g2, e⟩ | ⟨g1, g2, _⟩ | ⟨g1, e⟩
        · rw [e] at herr
          simp only [Res.err.injEq] at herr
          rw [← herr.2]; simp only; omega
        · rw [e] at herr; simp at herr
        · omega
        · rw [e] at herr; simp at herr

example : ∃ s, Snowflake.new 7#64 0#64 [5#64, 5#64, 6#64] = .ok s ∧
    issued (calls 3 s).1 = [compose 5#64 7#64 0#64, compose 5#64 7#64 1#64, compose 6#64 7#64 0#64] ∧
    Monotone 0#64 [5#64, 5#64, 6#64] ∧ ∀ c ∈ [5#64, 5#64, 6#64], InRange (c - 0#64) :=
  ⟨_, rfl, rfl, by unfold Monotone; decide, by
    intro c hc
    simp only [List.mem_cons, List.not_mem_nil, or_false] at hc
    rcases hc with rfl | rfl | rfl <;> unfold InRange <;> decide⟩

/-- `n` readings of the current millisecond give `n` consecutive sequence numbers. -/
theorem run_same (n : Nat) : ∀ (node epoch last seq c : BitVec 64) (rest : List (BitVec 64)),
    node.toNat < 1024 → seq.toNat + n ≤ 4095 → c - epoch = last →
    (calls n ⟨node, epoch, last, seq, List.replicate n c ++ rest⟩).2 =
      ⟨node, epoch, last, seq + BitVec.ofNat 64 n, rest⟩ := by
  induction n with
  | zero => intro node epoch last seq c rest _ _ _; simp [calls, runM]
  | succ n ih =>
    intro node epoch last seq c rest hn hs hc
    have hi : Inv ⟨node, epoch, last, seq, List.replicate (n + 1) c ++ rest⟩ :=
      ⟨hn, by simp only; omega⟩
    rw [calls_succ]
    rcases nextId_cases hi (c := c) (cs := List.replicate n c ++ rest) rfl with
      ⟨h, _⟩ | ⟨_, _, e⟩ | ⟨_, h, _⟩ | ⟨h, _⟩
    · simp only [hc] at h; omega
    · rw [e]
      simp only [Res.state_ok]
      have hadd : (seq + 1#64).toNat = seq.toNat + 1 := by
        rw [BitVec.toNat_add]; simp; omega
      rw [ih node epoch last (seq + 1#64) c rest hn (by omega) hc]
      congr 1
      rw [BitVec.add_assoc]
      congr 1
      rw [Nat.add_comm, BitVec.ofNat_add]
    · simp only at h; omega
    · simp only [hc] at h; omega

theorem calls_add (m n : Nat) (s : Snowflake) :
    calls (m + n) s = ((calls m s).1 ++ (calls n (calls m s).2).1, (calls n (calls m s).2).2) := by
  unfold calls
  rw [← List.replicate_append_replicate, runM_append]

theorem issued_append (a b : List (Except Err (BitVec 64))) :
    issued (a ++ b) = issued a ++ issued b := by
  induction a with
  | nil => rfl
  | cons o os ih => cases o <;> simp [issued, ih]

/-- C23 and C25 refuted: for every node id there is a clock which, in one step back of one
millisecond while the generator waits for an exhausted millisecond to end, makes it issue an id it
has issued before (and thereby an id with an earlier timestamp), without any exception. -/
theorem C23_duplicate_refuted (node epoch : BitVec 64) (hn : node.toNat < 1024) :
    ∃ clock s, (∀ c ∈ clock, InRange (c - epoch)) ∧
      Snowflake.new node epoch clock = .ok s ∧
      (∃ id, (issued (calls 4098 s).1).count id ≥ 2) := by
  have hs1 : (5#64 + epoch) - epoch = 5#64 := BitVec.add_sub_cancel _ _
  have hs2 : (6#64 + epoch) - epoch = 6#64 := BitVec.add_sub_cancel _ _
  refine ⟨(5#64 + epoch) :: (6#64 + epoch) :: (List.replicate 4095 (6#64 + epoch) ++
    [6#64 + epoch, 5#64 + epoch]), ⟨node, epoch, -1#64, 0#64, (5#64 + epoch) :: (6#64 + epoch) ::
    (List.replicate 4095 (6#64 + epoch) ++ [6#64 + epoch, 5#64 + epoch])⟩, ?_, ?_, compose 5#64 node 0#64, ?_⟩
  · intro c hc
    simp only [List.mem_cons, List.mem_append, List.mem_replicate, List.not_mem_nil, or_false] at hc
    have : c = 5#64 + epoch ∨ c = 6#64 + epoch := by
      rcases hc with h | h | ⟨_, h⟩ | h | h <;> simp [h]
    rcases this with rfl | rfl
    · rw [hs1]; unfold InRange; decide
    · rw [hs2]; unfold InRange; decide
  · unfold Snowflake.new
    rw [if_neg]
    rw [maxNodeId_eq]
    simp only [BitVec.slt, BitVec.toInt_zero, decide_eq_true_eq]
    have h1 := toInt_nat node
    have h2 : (1023#64).toInt = 1023 := by decide
    omega
  · -- first call
    have hi0 : ∀ (last : BitVec 64) cl, Inv ⟨node, epoch, last, 0#64, cl⟩ := fun _ _ => ⟨hn, by simp⟩
    have m1 : (-1#64 : BitVec 64).toInt = -1 := by decide
    have t5 : (5#64 : BitVec 64).toInt = 5 := by decide
    have t6 : (6#64 : BitVec 64).toInt = 6 := by decide
    have step1 : ∀ cl, nextId ⟨node, epoch, -1#64, 0#64, (5#64 + epoch) :: cl⟩ =
        .ok (compose 5#64 node 0#64) ⟨node, epoch, 5#64, 0#64, cl⟩ := by
      intro cl
      rcases nextId_cases (hi0 (-1#64) ((5#64 + epoch) :: cl)) (c := 5#64 + epoch) (cs := cl) rfl with
        ⟨h, _⟩ | ⟨h, _, e⟩ | ⟨h, _, _⟩ | ⟨h, e⟩
      · simp only [hs1, m1, t5] at h; omega
      · simp only [hs1] at h; exact absurd h (by decide)
      · simp only [hs1] at h; exact absurd h (by decide)
      · rw [e]; simp only [hs1]
    have step2 : ∀ cl, nextId ⟨node, epoch, 5#64, 0#64, (6#64 + epoch) :: cl⟩ =
        .ok (compose 6#64 node 0#64) ⟨node, epoch, 6#64, 0#64, cl⟩ := by
      intro cl
      rcases nextId_cases (hi0 5#64 ((6#64 + epoch) :: cl)) (c := 6#64 + epoch) (cs := cl) rfl with
        ⟨h, _⟩ | ⟨h, _, e⟩ | ⟨h, _, _⟩ | ⟨h, e⟩
      · simp only [hs2, t5, t6] at h; omega
      · simp only [hs2] at h; exact absurd h (by decide)
      · simp only [hs2] at h; exact absurd h (by decide)
      · rw [e]; simp only [hs2]
    have step4 : nextId ⟨node, epoch, 6#64, 4095#64, [6#64 + epoch, 5#64 + epoch]⟩ =
        .ok (compose 5#64 node 0#64) ⟨node, epoch, 5#64, 0#64, []⟩ := by
      have hwl : waitLoop epoch 6#64 [5#64 + epoch] = some (5#64, []) := by
        simp only [waitLoop, hs1]; rfl
      rcases nextId_cases (s := ⟨node, epoch, 6#64, 4095#64, [6#64 + epoch, 5#64 + epoch]⟩)
        ⟨hn, by show (4095#64).toNat < 4096; decide⟩ (c := 6#64 + epoch) (cs := [5#64 + epoch]) rfl with
        ⟨h, _⟩ | ⟨_, h, _⟩ | ⟨_, _, ⟨h, _⟩ | ⟨t, cs', h, e⟩⟩ | ⟨h, e⟩
      · simp only [hs2, t6] at h; omega
      · exact absurd h (by show ¬ (4095#64).toNat < 4095; decide)
      · rw [hwl] at h; simp at h
      · rw [hwl] at h
        simp only [Option.some.injEq, Prod.mk.injEq] at h
        rw [e, ← h.1, ← h.2]
      · simp only [hs2, t6] at h; omega
    have h3 := run_same 4095 node epoch 6#64 0#64 (6#64 + epoch) [6#64 + epoch, 5#64 + epoch] hn
      (by decide) hs2
    have e4098 : (4098 : Nat) = 1 + (1 + (4095 + 1)) := rfl
    rw [e4098, calls_add 1, calls_add 1, calls_add 4095]
    have c1 : ∀ cl, calls 1 ⟨node, epoch, -1#64, 0#64, (5#64 + epoch) :: cl⟩ =
        ([.ok (compose 5#64 node 0#64)], ⟨node, epoch, 5#64, 0#64, cl⟩) := by
      intro cl; rw [calls_succ, step1]; rfl
    have c2 : ∀ cl, calls 1 ⟨node, epoch, 5#64, 0#64, (6#64 + epoch) :: cl⟩ =
        ([.ok (compose 6#64 node 0#64)], ⟨node, epoch, 6#64, 0#64, cl⟩) := by
      intro cl; rw [calls_succ, step2]; rfl
    have c4 : calls 1 ⟨node, epoch, 6#64, 4095#64, [6#64 + epoch, 5#64 + epoch]⟩ =
        ([.ok (compose 5#64 node 0#64)], ⟨node, epoch, 5#64, 0#64, []⟩) := by
      rw [calls_succ, step4]; rfl
    have e0 : (0#64 + BitVec.ofNat 64 4095 : BitVec 64) = 4095#64 := by decide
    rw [e0] at h3
    rw [c1]
    simp only
    rw [c2]
    simp only
    rw [h3, c4]
    simp only [issued_append, issued, List.count_append, List.count_cons, List.count_nil]
    simp only [beq_self_eq_true, if_true]
    omega

/-- What makes ids go back: all 4096 sequence numbers of the millisecond are used up, the clock shows this
millisecond at least once more, and the first other reading is earlier. -/
def WaitedBack (s : Snowflake) : Prop :=
  s.sequence = 4095#64 ∧ ∃ (j : Nat) (r : BitVec 64) (cs : List (BitVec 64)),
    s.clock = List.replicate (j + 1) (s.lastTimestamp + s.customEpoch) ++ r :: cs ∧
    (r - s.customEpoch).toInt < s.lastTimestamp.toInt

theorem waitLoop_replicate {epoch last : BitVec 64} {cs cs' : List (BitVec 64)} {t : BitVec 64}
    (h : waitLoop epoch last cs = some (t, cs')) :
    ∃ j, cs = List.replicate j (last + epoch) ++ (t + epoch) :: cs' := by
  induction cs with
  | nil => simp [waitLoop] at h
  | cons c cs ih =>
    simp only [waitLoop] at h
    split at h
    · rename_i hc
      obtain ⟨j, hj⟩ := ih h
      refine ⟨j + 1, ?_⟩
      rw [List.replicate_succ, List.cons_append, ← hj, ← hc, BitVec.sub_add_cancel]
    · simp only [Option.some.injEq, Prod.mk.injEq] at h
      exact ⟨0, by rw [← h.1, ← h.2, BitVec.sub_add_cancel]; rfl⟩

theorem waitLoop_of_replicate (epoch last r : BitVec 64) (j : Nat) (cs : List (BitVec 64)) (h : r - epoch ≠ last) :
    waitLoop epoch last (List.replicate j (last + epoch) ++ r :: cs) = some (r - epoch, cs) := by
  induction j with
  | zero => simp [waitLoop, h]
  | succ j ih => simp [List.replicate_succ, waitLoop, BitVec.add_sub_cancel, ih]

/-- After any calls the generator is in order, and the last id issued is the one of its fields (unless the clock
has run out, or no id was issued in this millisecond). -/
theorem calls_state (node epoch : BitVec 64) (clock : List (BitVec 64)) (s : Snowflake)
    (hnew : Snowflake.new node epoch clock = .ok s) (hr : ∀ c ∈ clock, InRange (c - epoch)) (k : Nat) :
    let t := (calls k s).2
    Inv t ∧ ClockInRange t ∧
      (t.clock = [] ∨ t.sequence = 0#64 ∨
        InRange t.lastTimestamp ∧ compose t.lastTimestamp t.nodeId t.sequence ∈ issued (calls k s).1) := by
  induction k with
  | zero =>
    obtain ⟨hi, _, he, hc, _, hs⟩ := new_inv hnew
    exact ⟨hi, by intro c h; show InRange (c - s.customEpoch); rw [he]; exact hr c (hc ▸ h), .inr (.inl hs)⟩
  | succ k ih =>
    rw [calls_add k 1]
    generalize (calls k s).2 = t at ih ⊢
    generalize (calls k s).1 = outs at ih ⊢
    obtain ⟨hi, hc, hl⟩ := ih
    have e1 : calls 1 t = ([(nextId t).out], (nextId t).state) := rfl
    rw [e1]
    show Inv (nextId t).state ∧ _
    cases hn : nextId t with
    | ok id t' =>
      obtain ⟨h1, h2, _, h4, pre, r, h5, h6⟩ := nextId_ok hi hn
      refine ⟨h2, ?_, .inr (.inr ⟨?_, ?_⟩)⟩
      · intro c hc'; simp only [Res.state_ok] at *; rw [h4]; exact hc c (by rw [h5]; simp [hc'])
      · simp only [Res.state_ok]; rw [h6]; exact hc r (by rw [h5]; simp)
      · simp only [Res.state_ok, Res.out_ok]; rw [issued_append, ← h1]; simp [issued]
    | err e t' =>
      obtain ⟨h1, h2, h3, h4, h⟩ := nextId_err hi hn
      simp only [Res.state_err, Res.out_err]
      rcases h with ⟨_, h5, c, h6, _⟩ | ⟨_, h5⟩
      · refine ⟨h1, fun x hx => by rw [h3]; exact hc x (by rw [h6]; simp [hx]), ?_⟩
        rw [issued_append, h2, h4, h5]
        rcases hl with g | g | g
        · rw [h6] at g; simp at g
        · exact .inr (.inl g)
        · exact .inr (.inr ⟨g.1, List.mem_append_left _ g.2⟩)
      · exact ⟨h1, by intro x hx; rw [h5] at hx; simp at hx, .inl h5⟩

/-- C23, exactly (partial: `WaitedBack` is not excluded by the code, see `C23_duplicate_refuted`): whatever the clock
does, the ids issued are strictly increasing if and only if at no call the clock steps back after all
sequence numbers of the millisecond were used up. -/
theorem C23_exactly_partial (node epoch : BitVec 64) (clock : List (BitVec 64)) (s : Snowflake)
    (hnew : Snowflake.new node epoch clock = .ok s) (hr : ∀ c ∈ clock, InRange (c - epoch)) (n : Nat) :
    (issued (calls n s).1).Pairwise (fun a b => a.toInt < b.toInt) ↔ ∀ k < n, ¬ WaitedBack (calls k s).2 := by
  constructor
  · intro hp k hk hw
    obtain ⟨hi, hc, hl⟩ := calls_state node epoch clock s hnew hr k
    have split : n = k + (1 + (n - k - 1)) := by omega
    rw [split, calls_add k, calls_add 1] at hp
    generalize (calls k s).2 = t at *
    generalize (calls k s).1 = outs at *
    obtain ⟨hseq, j, r, cs, hcl, hlt⟩ := hw
    have hnil : t.clock ≠ [] := by rw [hcl]; simp
    have hne : r - t.customEpoch ≠ t.lastTimestamp := by intro e; rw [e] at hlt; omega
    have hin : InRange (r - t.customEpoch) := hc r (by rw [hcl]; simp)
    have hcl' : t.clock = (t.lastTimestamp + t.customEpoch) ::
        (List.replicate j (t.lastTimestamp + t.customEpoch) ++ r :: cs) := by
      rw [hcl, List.replicate_succ]; rfl
    have hstep : ∃ t', nextId t = .ok (compose (r - t.customEpoch) t.nodeId 0#64) t' := by
      have e0 : t.lastTimestamp + t.customEpoch - t.customEpoch = t.lastTimestamp := BitVec.add_sub_cancel _ _
      have hw := waitLoop_of_replicate t.customEpoch t.lastTimestamp r j cs hne
      rcases nextId_cases hi hcl' with ⟨h, _⟩ | ⟨_, h, _⟩ | ⟨_, _, ⟨h, _⟩ | ⟨x, cs', h, e⟩⟩ | ⟨h, _⟩
      · rw [e0] at h; omega
      · rw [hseq] at h; exact absurd h (by decide)
      · rw [hw] at h; simp at h
      · rw [hw] at h
        simp only [Option.some.injEq, Prod.mk.injEq] at h
        rw [← h.1] at e
        exact ⟨_, e⟩
      · rw [e0] at h; omega
    obtain ⟨t', hstep⟩ := hstep
    rcases hl with g | g | ⟨g1, g2⟩
    · exact hnil g
    · rw [hseq] at g; exact absurd g (by decide)
    · have e1 : (calls 1 t).1 = [.ok (compose (r - t.customEpoch) t.nodeId 0#64)] := by
        rw [calls_succ, hstep]; rfl
      rw [e1, issued_append, issued_append, List.pairwise_append] at hp
      have := hp.2.2 _ g2 (compose (r - t.customEpoch) t.nodeId 0#64) (by simp [issued])
      rw [compose_toInt hi.node hi.seq g1, compose_toInt hi.node (by simp) hin] at this
      have z : (0#64).toNat = 0 := rfl
      rw [z] at this
      have := hi.node
      omega
  · intro hk
    obtain ⟨hi, _, he, hc, _, _⟩ := new_inv hnew
    refine (issued_increasing
      (fun n s => Inv s ∧ ClockInRange s ∧ ∀ k < n, ¬ WaitedBack (calls k s).2) ?_ n s
      ⟨hi, by intro c h; rw [he]; exact hr c (hc ▸ h), hk⟩).2
    rintro n s ⟨hi, hr, hk⟩
    have hk' : ∀ k < n, ¬ WaitedBack (calls k (nextId s).state).2 := by
      intro k hkn
      have := hk (k + 1) (by omega)
      rw [calls_succ] at this
      exact this
    have h0 := hk 0 (by omega)
    refine ⟨hi, hr, ?_, ?_⟩
    · intro id s' hok
      obtain ⟨_, h2, _, h4, pre, r, h5, h6⟩ := nextId_ok hi hok
      rw [hok] at hk'
      refine ⟨?_, h2, ?_, hk'⟩
      · intro hseq
        cases hcl : s.clock with
        | nil => rw [nextId_empty hcl] at hok; simp at hok
        | cons c cs =>
          rcases nextId_cases hi hcl with ⟨_, e⟩ | ⟨g1, g2, e⟩ | ⟨g1, g2, ⟨_, e⟩ | ⟨t, cs', g3, e⟩⟩ | ⟨g1, e⟩
          · rw [e] at hok; simp at hok
          · omega
          · rw [e] at hok; simp at hok
          · rw [e] at hok
            simp only [Res.ok.injEq] at hok
            obtain ⟨-, rfl⟩ := hok
            simp only
            apply Classical.byContradiction
            intro hlt
            apply h0
            obtain ⟨j, hj⟩ := waitLoop_replicate g3
            refine ⟨BitVec.eq_of_toNat_eq hseq, j, t + s.customEpoch, cs', ?_, ?_⟩
            · show s.clock = List.replicate (j + 1) (s.lastTimestamp + s.customEpoch) ++ (t + s.customEpoch) :: cs'
              rw [hcl, hj, List.replicate_succ, ← g1, BitVec.sub_add_cancel]; rfl
            · show (t + s.customEpoch - s.customEpoch).toInt < s.lastTimestamp.toInt
              rw [BitVec.add_sub_cancel]; omega
          · rw [e] at hok
            simp only [Res.ok.injEq] at hok
            obtain ⟨-, rfl⟩ := hok
            simp only; omega
      · intro c hc; rw [h4]; exact hr c (by rw [h5]; simp [hc])
    · intro e s' herr
      obtain ⟨h1, _, h3, _, h⟩ := nextId_err hi herr
      rw [herr] at hk'
      rcases h with ⟨_, _, c, hc, _⟩ | ⟨_, hc⟩
      · exact ⟨h1, by intro x hx; rw [h3]; exact hr x (by rw [hc]; simp [hx]), hk'⟩
      · exact ⟨h1, by intro x hx; rw [hc] at hx; simp at hx, hk'⟩

/-- C88: in every state a call waits only if all 4096 sequence numbers of the millisecond the clock shows are used
up; otherwise it looks at the clock once.  A waiting call returns at the first reading that is different. -/
theorem C88_waits_only_when_used_up (s : Snowflake) (hi : Inv s) (c : BitVec 64) (cs : List (BitVec 64))
    (hc : s.clock = c :: cs) :
    (¬ (c - s.customEpoch = s.lastTimestamp ∧ s.sequence = 4095#64) → (nextId s).state.clock = cs) ∧
    (∀ (j : Nat) (r : BitVec 64) (rest : List (BitVec 64)), c - s.customEpoch = s.lastTimestamp →
      s.sequence = 4095#64 → cs = List.replicate j c ++ r :: rest → r ≠ c →
      ∃ id, (nextId s).out = .ok id ∧ (nextId s).state.clock = rest ∧
        (nextId s).state.lastTimestamp = r - s.customEpoch) := by
  constructor
  · intro hn
    rcases nextId_cases hi hc with ⟨_, e⟩ | ⟨_, _, e⟩ | ⟨h1, h2, _⟩ | ⟨_, e⟩
    · rw [e]; rfl
    · rw [e]; rfl
    · exact absurd ⟨h1, BitVec.eq_of_toNat_eq h2⟩ hn
    · rw [e]; rfl
  · intro j r rest h1 h2 h3 h4
    have h5 : c = s.lastTimestamp + s.customEpoch := by rw [← h1, BitVec.sub_add_cancel]
    have hne : r - s.customEpoch ≠ s.lastTimestamp := by
      intro e; apply h4; rw [h5, ← e, BitVec.sub_add_cancel]
    have hw := waitLoop_of_replicate s.customEpoch s.lastTimestamp r j rest hne
    rw [← h5, ← h3] at hw
    rcases nextId_cases hi hc with ⟨h, _⟩ | ⟨_, h, _⟩ | ⟨_, _, ⟨h, _⟩ | ⟨t, cs', h, e⟩⟩ | ⟨h, _⟩
    · rw [h1] at h; omega
    · rw [h2] at h; exact absurd h (by decide)
    · rw [hw] at h; simp at h
    · rw [hw] at h
      simp only [Option.some.injEq, Prod.mk.injEq] at h
      rw [e, ← h.1, ← h.2]; exact ⟨_, rfl, rfl, rfl⟩
    · rw [h1] at h; omega

/-- C88: within one millisecond a generator issues 4096 ids without waiting, with the sequence numbers 0 to 4095 in
order, whatever the clock showed before. -/
theorem C88_full_millisecond (s : Snowflake) (hi : Inv s) (c : BitVec 64)
    (hl : s.lastTimestamp.toInt < (c - s.customEpoch).toInt) (n : Nat) (hn : n ≤ 4096) (rest : List (BitVec 64))
    (hc : s.clock = List.replicate n c ++ rest) :
    (calls n s).1 = (List.range n).map (fun i => .ok (compose (c - s.customEpoch) s.nodeId (BitVec.ofNat 64 i))) ∧
    (calls n s).2.clock = rest := by
  have same : ∀ (m q : Nat) (node epoch last : BitVec 64), node.toNat < 1024 → c - epoch = last →
      q + m ≤ 4095 →
      (calls m ⟨node, epoch, last, BitVec.ofNat 64 q, List.replicate m c ++ rest⟩).1 =
        (List.range m).map (fun i => .ok (compose last node (BitVec.ofNat 64 (q + 1 + i)))) ∧
      (calls m ⟨node, epoch, last, BitVec.ofNat 64 q, List.replicate m c ++ rest⟩).2.clock = rest := by
    intro m
    induction m with
    | zero => intro q node epoch last _ _ _; exact ⟨rfl, rfl⟩
    | succ m ih =>
      intro q node epoch last hnode hlast hq
      have hqn : (BitVec.ofNat 64 q).toNat = q := by rw [BitVec.toNat_ofNat]; omega
      have hi' : Inv ⟨node, epoch, last, BitVec.ofNat 64 q, List.replicate (m + 1) c ++ rest⟩ :=
        ⟨hnode, by simp only [hqn]; omega⟩
      have hadd : (BitVec.ofNat 64 q + 1#64 : BitVec 64) = BitVec.ofNat 64 (q + 1) := by
        rw [BitVec.ofNat_add]
      rw [calls_succ]
      rcases nextId_cases hi' (c := c) (cs := List.replicate m c ++ rest) rfl with
        ⟨h, _⟩ | ⟨_, _, e⟩ | ⟨_, h, _⟩ | ⟨h, _⟩
      · simp only [hlast] at h; omega
      · rw [e]
        simp only [Res.state_ok, Res.out_ok, hadd, hlast]
        obtain ⟨g1, g2⟩ := ih (q + 1) node epoch last hnode hlast (by omega)
        refine ⟨?_, g2⟩
        rw [g1, List.range_succ_eq_map, List.map_cons, List.map_map]
        congr 1
        apply List.map_congr_left
        intro i _
        simp only [Function.comp_apply, Except.ok.injEq]
        congr 2; omega
      · simp only [hqn] at h; omega
      · simp only [hlast] at h; omega
  cases n with
  | zero => exact ⟨rfl, by simpa [calls, runM] using hc⟩
  | succ m =>
    rw [calls_succ]
    rcases nextId_cases hi (c := c) (cs := List.replicate m c ++ rest) (by rw [hc]; rfl) with
      ⟨h, _⟩ | ⟨h, _⟩ | ⟨h, _⟩ | ⟨_, e⟩
    · omega
    · rw [h] at hl; omega
    · rw [h] at hl; omega
    · rw [e]
      obtain ⟨g1, g2⟩ := same m 0 s.nodeId s.customEpoch (c - s.customEpoch) hi.node rfl (by omega)
      simp only [Res.state_ok, Res.out_ok]
      refine ⟨?_, g2⟩
      have z : (0#64 : BitVec 64) = BitVec.ofNat 64 0 := rfl
      rw [z, g1, List.range_succ_eq_map, List.map_cons, List.map_map]
      congr 1
      apply List.map_congr_left
      intro i _
      simp only [Function.comp_apply, Except.ok.injEq]
      congr 2; omega

/-- Three ids in a millisecond, one in the next; one reading each. -/
example : ∃ s, Snowflake.new 7#64 0#64 [5#64, 5#64, 5#64, 6#64] = .ok s ∧ Inv s ∧
    s.lastTimestamp.toInt < (5#64 - s.customEpoch).toInt ∧
    (calls 3 s).1 = [.ok (compose 5#64 7#64 0#64), .ok (compose 5#64 7#64 1#64), .ok (compose 5#64 7#64 2#64)] ∧
    (∀ k < 3, ¬ WaitedBack (calls k s).2) :=
  ⟨_, rfl, ⟨by decide, by decide⟩, by decide, rfl, by
    intro k hk
    rcases (by omega : k = 0 ∨ k = 1 ∨ k = 2) with rfl | rfl | rfl <;> (rintro ⟨h, _⟩; exact absurd h (by decide))⟩

/-- C24: `parse` gives back what an id was built from: the clock reading at which the call ended, the
node id and the sequence number (in range), for every state, clock and custom epoch, if that
timestamp fits in 41 bits. -/
theorem C24_parse (s s' : Snowflake) (id : BitVec 64) (hi : Inv s) (h : nextId s = .ok id s')
    (hr : ∀ c ∈ s.clock, InRange (c - s.customEpoch)) :
    ∃ reading, reading ∈ s.clock ∧ (parse s' id).1 = reading ∧ (parse s' id).2.1 = s.nodeId ∧
      (parse s' id).2.2 = s'.sequence ∧ (parse s' id).2.2.toNat < 4096 := by
  obtain ⟨h1, h2, h3, h4, pre, r, h5, h6⟩ := nextId_ok hi h
  have hmem : r ∈ s.clock := by rw [h5]; simp
  have hl : InRange s'.lastTimestamp := by rw [h6]; exact hr r hmem
  have hnat := compose_toNat (ts := s'.lastTimestamp) h2.node h2.seq
  have hint := compose_toInt h2.node h2.seq hl
  rw [← h1] at hnat hint
  have hn := h2.node
  have hs := h2.seq
  have p3 : (parse s' id).2.2 = s'.sequence := by
    apply BitVec.eq_of_toNat_eq
    have := and_mask_toNat id 12 (by omega)
    have e : (parse s' id).2.2 = id &&& BitVec.ofNat 64 (2 ^ 12 - 1) := rfl
    rw [e, this, hnat]; omega
  refine ⟨r, hmem, ?_, ?_, p3, by rw [p3]; exact hs⟩
  · have e : id.sshiftRight 22 = s'.lastTimestamp := by
      apply BitVec.eq_of_toInt_eq
      rw [BitVec.toInt_sshiftRight, Int.shiftRight_eq_div_pow, hint]
      omega
    show id.sshiftRight 22 + s'.customEpoch = r
    rw [e, h4, h6, BitVec.sub_add_cancel]
  · show (id &&& (((1#64 <<< 10) - 1#64) <<< 12)).sshiftRight 12 = s.nodeId
    have hm : (((1#64 <<< 10) - 1#64) <<< 12 : BitVec 64) = BitVec.ofNat 64 (1023 * 2 ^ 12) := by decide
    rw [hm, ← h3]
    have hv : (id &&& BitVec.ofNat 64 (1023 * 2 ^ 12)).toNat = s'.nodeId.toNat * 2 ^ 12 := by
      rw [BitVec.toNat_and, BitVec.toNat_ofNat]
      have e1 : 1023 * 2 ^ 12 % 2 ^ 64 = (2 ^ 10 - 1) * 2 ^ 12 := by decide
      rw [e1]
      have e2 : id.toNat &&& ((2 ^ 10 - 1) * 2 ^ 12) = ((id.toNat / 2 ^ 12) &&& (2 ^ 10 - 1)) * 2 ^ 12 := by
        have hmod : (id.toNat &&& ((2 ^ 10 - 1) * 2 ^ 12)) % 2 ^ 12 = 0 := by
          rw [Nat.and_mod_two_pow, Nat.mul_mod_left, Nat.and_zero]
        have hdiv : (id.toNat &&& ((2 ^ 10 - 1) * 2 ^ 12)) / 2 ^ 12 =
            (id.toNat / 2 ^ 12) &&& (2 ^ 10 - 1) := by
          rw [Nat.and_div_two_pow, Nat.mul_div_cancel _ (by decide)]
        rw [← hdiv]; omega
      rw [e2, Nat.and_two_pow_sub_one_eq_mod, hnat]; omega
    apply BitVec.eq_of_toInt_eq
    rw [BitVec.toInt_sshiftRight, Int.shiftRight_eq_div_pow]
    have a1 := toInt_nat (id &&& BitVec.ofNat 64 (1023 * 2 ^ 12))
    have a2 := toInt_nat s'.nodeId
    omega

example : ∃ s, Snowflake.new 7#64 100#64 [105#64] = .ok s ∧
    ∃ id s', nextId s = .ok id s' ∧ parse s' id = (105#64, 7#64, 0#64) := ⟨_, rfl, _, _, rfl, by decide⟩

/-- C25: in every state, when the clock's next reading is behind the last issued timestamp, the call
throws IllegalStateException and nothing but the clock has moved. -/
theorem C25_backwards_throws (s : Snowflake) (hi : Inv s) (c : BitVec 64) (cs : List (BitVec 64))
    (hc : s.clock = c :: cs) (hb : (c - s.customEpoch).toInt < s.lastTimestamp.toInt) :
    nextId s = .err .illegalState { s with clock := cs } := by
  rcases nextId_cases hi hc with ⟨_, e⟩ | ⟨h, _⟩ | ⟨h, _⟩ | ⟨h, _⟩
  · exact e
  · rw [h] at hb; omega
  · rw [h] at hb; omega
  · omega

/-- C25: IllegalStateException is thrown in no other case. -/
theorem C25_only_backwards (s s' : Snowflake) (hi : Inv s) (h : nextId s = .err .illegalState s') :
    ∃ c cs, s.clock = c :: cs ∧ (c - s.customEpoch).toInt < s.lastTimestamp.toInt := by
  obtain ⟨_, _, _, _, h⟩ := nextId_err hi h
  rcases h with ⟨_, _, c, hc, hlt⟩ | ⟨h, _⟩
  · exact ⟨c, _, hc, hlt⟩
  · simp at h

/-- C25 (partial: unless the sequence of the current millisecond is used up, in which case the
generator trusts whatever the clock says next, see `C25_wait_regress_refuted`): a successful call
never issues an earlier timestamp. -/
theorem C25_never_earlier_partial (s s' : Snowflake) (id : BitVec 64) (hi : Inv s)
    (h : nextId s = .ok id s') (hs : s.sequence.toNat < 4095) :
    s.lastTimestamp.toInt ≤ s'.lastTimestamp.toInt := by
  cases hc : s.clock with
  | nil => rw [nextId_empty hc] at h; simp at h
  | cons c cs =>
    rcases nextId_cases hi hc with ⟨_, e⟩ | ⟨h1, h2, e⟩ | ⟨h1, h2, _⟩ | ⟨h1, e⟩
    · rw [e] at h; simp at h
    · rw [e] at h; simp only [Res.ok.injEq] at h; rw [← h.2]; exact Int.le_refl _
    · omega
    · rw [e] at h; simp only [Res.ok.injEq] at h; rw [← h.2]; simp only; omega

/-- C25 refuted: with the sequence used up, *any* different reading, also any earlier one, is
accepted without an exception. -/
theorem C25_wait_regress_refuted (s : Snowflake) (hi : Inv s) (hs : s.sequence.toNat = 4095)
    (r : BitVec 64) (hne : r ≠ s.lastTimestamp) (cs : List (BitVec 64))
    (hc : s.clock = (s.lastTimestamp + s.customEpoch) :: (r + s.customEpoch) :: cs) :
    ∃ id s', nextId s = .ok id s' ∧ s'.lastTimestamp = r := by
  have e0 : s.lastTimestamp + s.customEpoch - s.customEpoch = s.lastTimestamp :=
    BitVec.add_sub_cancel _ _
  have hw : waitLoop s.customEpoch s.lastTimestamp ((r + s.customEpoch) :: cs) = some (r, cs) := by
    simp [waitLoop, BitVec.add_sub_cancel, hne]
  rcases nextId_cases hi hc with ⟨h, _⟩ | ⟨_, h, _⟩ | ⟨_, _, ⟨h, _⟩ | ⟨t, cs', h, e⟩⟩ | ⟨h, _⟩
  · rw [e0] at h; omega
  · omega
  · rw [hw] at h; simp at h
  · rw [hw] at h
    simp only [Option.some.injEq, Prod.mk.injEq] at h
    exact ⟨_, _, e, h.1.symm⟩
  · rw [e0] at h; omega

/-- Every id of a history carries the node id in bits 12 to 21. -/
theorem issued_node (n : Nat) (s : Snowflake) (hi : Inv s) (id : BitVec 64)
    (h : id ∈ issued (calls n s).1) : id.toNat / 4096 % 1024 = s.nodeId.toNat := by
  induction n generalizing s with
  | zero => simp [calls, runM, issued] at h
  | succ n ih =>
    rw [calls_succ] at h
    cases hn : nextId s with
    | ok x s' =>
      obtain ⟨h1, h2, h3, _⟩ := nextId_ok hi hn
      rw [hn] at h
      simp only [Res.out_ok, Res.state_ok, issued, List.mem_cons] at h
      rcases h with rfl | h
      · have := compose_toNat (ts := s'.lastTimestamp) h2.node h2.seq
        have hn := h2.node
        have hs := h2.seq
        rw [h1, this, ← h3]; omega
      · rw [ih s' h2 h, h3]
    | err e s' =>
      obtain ⟨h2, h3, _⟩ := nextId_err hi hn
      rw [hn] at h
      simp only [Res.out_err, Res.state_err, issued] at h
      rw [ih s' h2 h, h3]

/-- C26: generators with different node ids never issue the same id, whatever their clocks, epochs
and numbers of calls. -/
theorem C26_nodes_disjoint (n1 n2 e1 e2 : BitVec 64) (c1 c2 : List (BitVec 64)) (s1 s2 : Snowflake)
    (h1 : Snowflake.new n1 e1 c1 = .ok s1) (h2 : Snowflake.new n2 e2 c2 = .ok s2) (hne : n1 ≠ n2)
    (k1 k2 : Nat) (id : BitVec 64) (m1 : id ∈ issued (calls k1 s1).1) :
    id ∉ issued (calls k2 s2).1 := by
  intro m2
  obtain ⟨i1, e1, _⟩ := new_inv h1
  obtain ⟨i2, e2, _⟩ := new_inv h2
  have a := issued_node k1 s1 i1 id m1
  have b := issued_node k2 s2 i2 id m2
  apply hne
  rw [← e1, ← e2]
  exact BitVec.eq_of_toNat_eq (a.symm.trans b)

/-- C26: the constructor accepts exactly the node ids 0 to 1023. -/
theorem C26_node_range (node epoch : BitVec 64) (clock : List (BitVec 64)) :
    (∃ s, Snowflake.new node epoch clock = .ok s) ↔ 0 ≤ node.toInt ∧ node.toInt ≤ 1023 := by
  have h2 : (1023#64).toInt = 1023 := by decide
  unfold Snowflake.new
  rw [maxNodeId_eq]
  simp only [BitVec.slt, BitVec.toInt_zero, decide_eq_true_eq, h2]
  constructor
  · rintro ⟨s, hs⟩
    split at hs
    · simp at hs
    · omega
  · intro h
    rw [if_neg (by omega)]
    exact ⟨_, rfl⟩

/-- C26: the node id generated from any node name is accepted by the constructor. -/
theorem C26_node_from_name (hash : BitVec 32) (epoch : BitVec 64) (clock : List (BitVec 64)) :
    ∃ s, Snowflake.new (createNodeId hash) epoch clock = .ok s := by
  rw [C26_node_range]
  have h : (createNodeId hash).toNat = (hash.signExtend 64).toNat % 2 ^ 10 :=
    and_mask_toNat _ 10 (by omega)
  have := toInt_nat (createNodeId hash)
  omega
end Verif
