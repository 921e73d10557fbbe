import Verif.Props.Snowflake
import Verif.Spec.Snowflake
/-! # Property C103: the id generator is the ideal one, whatever the clock does -/
namespace Verif
open Snowflake SnowflakeSpec

/-- A reading of the clock in milliseconds since the epoch. -/
def sinceEpoch (epoch c : BitVec 64) : Int := (c - epoch).toInt

/-- The generator `g` describes the object `s`. -/
structure Describes (g : Gen) (s : Snowflake) : Prop where
  inv : Inv s
  range : ClockInRange s
  readings : g.readings = s.clock.map (sinceEpoch s.customEpoch)
  last : s.clock = [] ∨ (g.last = s.lastTimestamp.toInt ∧ g.seq = s.sequence.toNat)

theorem waitLoop_dropWhile (epoch last : BitVec 64) (cs : List (BitVec 64)) :
    match waitLoop epoch last cs with
    | none => (cs.map (sinceEpoch epoch)).dropWhile (· = last.toInt) = []
    | some (t, cs') => (cs.map (sinceEpoch epoch)).dropWhile (· = last.toInt) = t.toInt :: cs'.map (sinceEpoch epoch) := by
  induction cs with
  | nil => rfl
  | cons c cs ih =>
    have key : (sinceEpoch epoch c = last.toInt) ↔ c - epoch = last := BitVec.toInt_inj
    by_cases h : c - epoch = last
    · simp only [waitLoop, h, if_true, List.map_cons]
      rw [List.dropWhile_cons_of_pos (by simpa using key.2 h)]
      exact ih
    · simp only [waitLoop, h, if_false, List.map_cons]
      rw [List.dropWhile_cons_of_neg (by simpa using fun e => h (key.1 e))]
      rfl

theorem next_describes {g : Gen} {s : Snowflake} (h : Describes g s) :
    (SnowflakeSpec.next s.nodeId.toNat g).1 = (nextId s).out.map BitVec.toInt ∧
    Describes (SnowflakeSpec.next s.nodeId.toNat g).2 (nextId s).state ∧ (nextId s).state.nodeId = s.nodeId := by
  obtain ⟨hi, hr, hrd, hl⟩ := h
  cases hc : s.clock with
  | nil =>
    rw [nextId_empty hc]
    rw [hc] at hrd
    simp only [List.map_nil] at hrd
    simp only [SnowflakeSpec.next, hrd]
    exact ⟨rfl, ⟨hi, hr, by simp [hrd, hc], .inl hc⟩, rfl⟩
  | cons c cs =>
    have hl' : g.last = s.lastTimestamp.toInt ∧ g.seq = s.sequence.toNat := by
      rcases hl with h | h
      · rw [hc] at h; simp at h
      · exact h
    obtain ⟨el, es⟩ := hl'
    rw [hc] at hrd
    simp only [List.map_cons] at hrd
    have hrange : ∀ x ∈ c :: cs, InRange (x - s.customEpoch) := by
      intro x hx; exact hr x (by rw [hc]; exact hx)
    have hcs : ∀ x ∈ cs, InRange (x - s.customEpoch) := fun x hx => hrange x (List.mem_cons_of_mem _ hx)
    have hcin := hrange c List.mem_cons_self
    simp only [SnowflakeSpec.next, hrd]
    rcases nextId_cases hi hc with ⟨h1, e⟩ | ⟨h1, h2, e⟩ | ⟨h1, h2, hw⟩ | ⟨h1, e⟩
    · rw [e, if_pos (by rw [el]; exact h1)]
      exact ⟨rfl, ⟨⟨hi.node, hi.seq⟩, hcs, rfl, .inr ⟨el, es⟩⟩, rfl⟩
    · have hsame : sinceEpoch s.customEpoch c = g.last := by rw [el, ← h1]; rfl
      have hadd : (s.sequence + 1#64).toNat = s.sequence.toNat + 1 := by
        rw [BitVec.toNat_add]; simp; omega
      rw [e, if_neg (by omega), if_neg (by omega), if_pos (by omega)]
      refine ⟨?_, ⟨⟨hi.node, by simp only [Res.state_ok]; omega⟩, hcs, rfl, .inr ⟨?_, ?_⟩⟩, rfl⟩
      · show _ = Except.ok _
        congr 1
        rw [compose_toInt hi.node (by omega) hcin, hadd, es]
        rw [hsame, el, h1]; rfl
      · show sinceEpoch _ _ = _; rw [hsame, el]; rfl
      · simp only [Res.state_ok]; omega
    · have hsame : sinceEpoch s.customEpoch c = g.last := by rw [el, ← h1]; rfl
      rw [if_neg (by omega), if_neg (by omega), if_neg (by omega)]
      have hd := waitLoop_dropWhile s.customEpoch s.lastTimestamp cs
      rw [← el] at hd
      rcases hw with ⟨hw, e⟩ | ⟨t, cs', hw, e⟩
      · rw [hw] at hd
        simp only at hd
        rw [e, hd]
        exact ⟨rfl, ⟨⟨hi.node, by simp⟩, by intro x hx; simp at hx, rfl, .inl rfl⟩, rfl⟩
      · rw [hw] at hd
        simp only at hd
        rw [e, hd]
        obtain ⟨_, pre, r, hp, hr'⟩ := waitLoop_some hw
        have htin : InRange t := by rw [hr']; exact hcs r (by rw [hp]; simp)
        refine ⟨?_, ⟨⟨hi.node, (by decide : (0#64).toNat < 4096)⟩, fun x hx => hcs x (by rw [hp]; exact List.mem_append_right _ (List.mem_cons_of_mem _ hx)), rfl, .inr ⟨rfl, rfl⟩⟩, rfl⟩
        show _ = Except.ok _
        congr 1
        rw [compose_toInt hi.node (by simp) htin]
        simp [idOf]
    · have : g.last < sinceEpoch s.customEpoch c := by rw [el]; exact h1
      rw [e, if_neg (by omega), if_pos this]
      refine ⟨?_, ⟨⟨hi.node, by simp⟩, hcs, rfl, .inr ⟨rfl, by simp⟩⟩, rfl⟩
      show _ = Except.ok _
      congr 1
      rw [compose_toInt hi.node (by simp) hcin]
      simp [idOf, sinceEpoch]

theorem calls_describes (n : Nat) : ∀ {g : Gen} {s : Snowflake}, Describes g s →
    nexts s.nodeId.toNat n g = (calls n s).1.map (fun o => o.map BitVec.toInt) := by
  induction n with
  | zero => intro g s _; rfl
  | succ n ih =>
    intro g s h
    obtain ⟨h1, h2, h3⟩ := next_describes h
    rw [calls_succ]
    simp only [nexts, List.map_cons]
    rw [h1, ← ih h2, h3]

/-- C103: for every node id, epoch, clock (also one that jumps back) and number of calls, the outcomes are those of
the ideal generator: each id is determined by the readings, the node and the ids before it. -/
theorem C103_ideal (node epoch : BitVec 64) (clock : List (BitVec 64)) (s : Snowflake)
    (hnew : Snowflake.new node epoch clock = .ok s) (hr : ∀ c ∈ clock, InRange (c - epoch)) (n : Nat) :
    (calls n s).1.map (fun o => o.map BitVec.toInt) =
      nexts node.toNat n ⟨-1, 0, clock.map (fun c => (c - epoch).toInt)⟩ := by
  obtain ⟨hi, hn, he, hc, hl, hs⟩ := new_inv hnew
  have hd : Describes ⟨-1, 0, clock.map (fun c => (c - epoch).toInt)⟩ s := by
    refine ⟨hi, ?_, ?_, .inr ⟨?_, ?_⟩⟩
    · intro c h; rw [he]; exact hr c (hc ▸ h)
    · simp only [hc, he]; rfl
    · rw [hl]; rfl
    · rw [hs]; rfl
  rw [← calls_describes n hd, hn]

/-- The ideal generator says, for one: a call whose reading is earlier than the timestamp of an id issued just
before is refused. -/
example : nexts 3 4 ⟨-1, 0, [100, 100, 99, 101]⟩ =
    [.ok (idOf 100 3 0), .ok (idOf 100 3 1), .error .illegalState, .ok (idOf 101 3 0)] := by rfl

example : ∃ s, Snowflake.new 3#64 1000#64 [1100#64, 1100#64, 1099#64, 1101#64] = .ok s ∧
    (∀ c ∈ [1100#64, 1100#64, 1099#64, 1101#64], InRange (c - 1000#64)) :=
  ⟨_, rfl, by simp [InRange]⟩

end Verif
