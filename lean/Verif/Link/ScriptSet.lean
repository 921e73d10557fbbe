import Verif.Link.ScriptIndex
import Verif.Link.SetEffProps
/-! C113 for the indexed set: consumers that keep a state, call back, look at the answers and throw, on the generated
walks. -/
set_option linter.unusedSectionVars false
namespace Verif
open ScriptSpec Verif.Index Verif.IndexSpec

namespace Link.SetL
open Verif.Walk Link.ScriptL Link.WalkL
variable {σ β : Type} {K V : Type} [Inhabited K] [Inhabited V]

theorem walk_loop2_entry (c : Int → JM (Beside σ (Index K V)) β) : ∀ (n : Nat) (acc : List β) (hits e : Int),
    Gen.KeyIndexedSetWalk.forEachEntry_loop2 c n acc hits e = Gen.KeyValueIndexedMapWalk.forEachEntry_loop2 c n acc hits e
  | 0, _, _, _ => rfl
  | n + 1, acc, hits, e => by
    unfold Gen.KeyIndexedSetWalk.forEachEntry_loop2 Gen.KeyValueIndexedMapWalk.forEachEntry_loop2
    simp only [walk_loop2_entry c n]

theorem walk_loop1_entry (fuel : Nat) (c : Int → JM (Beside σ (Index K V)) β) (N : Int) : ∀ (n : Nat) (acc : List β)
    (hits e : Int), Gen.KeyIndexedSetWalk.forEachEntry_loop1 fuel c N n acc hits e =
      Gen.KeyValueIndexedMapWalk.forEachEntry_loop1 fuel c N n acc hits e
  | 0, _, _, _ => rfl
  | n + 1, acc, hits, e => by
    unfold Gen.KeyIndexedSetWalk.forEachEntry_loop1 Gen.KeyValueIndexedMapWalk.forEachEntry_loop1
    simp only [walk_loop2_entry, walk_loop1_entry fuel c N n]

theorem walk_entry (fuel : Nat) (c : Int → JM (Beside σ (Index K V)) β) :
    Gen.KeyIndexedSetWalk.forEachEntry fuel c = Gen.KeyValueIndexedMapWalk.forEachEntry fuel c := by
  unfold Gen.KeyIndexedSetWalk.forEachEntry Gen.KeyValueIndexedMapWalk.forEachEntry
  simp only [walk_loop1_entry]

theorem walk_loop2_key (c : K → JM (Beside σ (Index K V)) β) : ∀ (n : Nat) (acc : List β) (hits e : Int),
    Gen.KeyIndexedSetWalk.forEach_loop2 c n acc hits e = Gen.KeyValueIndexedMapWalk.forEach_loop2 c n acc hits e
  | 0, _, _, _ => rfl
  | n + 1, acc, hits, e => by
    unfold Gen.KeyIndexedSetWalk.forEach_loop2 Gen.KeyValueIndexedMapWalk.forEach_loop2
    simp only [walk_loop2_key c n]

theorem walk_loop1_key (fuel : Nat) (c : K → JM (Beside σ (Index K V)) β) (N : Int) : ∀ (n : Nat) (acc : List β)
    (hits e : Int), Gen.KeyIndexedSetWalk.forEach_loop1 fuel c N n acc hits e =
      Gen.KeyValueIndexedMapWalk.forEach_loop1 fuel c N n acc hits e
  | 0, _, _, _ => rfl
  | n + 1, acc, hits, e => by
    unfold Gen.KeyIndexedSetWalk.forEach_loop1 Gen.KeyValueIndexedMapWalk.forEach_loop1
    simp only [walk_loop2_key, walk_loop1_key fuel c N n]

theorem walk_key (fuel : Nat) (c : K → JM (Beside σ (Index K V)) β) :
    Gen.KeyIndexedSetWalk.forEach fuel c = Gen.KeyValueIndexedMapWalk.forEach fuel c := by
  unfold Gen.KeyIndexedSetWalk.forEach Gen.KeyValueIndexedMapWalk.forEach
  simp only [walk_loop1_key]

/-- The generated `forEachEntry` (`keys = false`) or `forEach` (`keys = true`) of the set, with a consumer that is a script
for each value handed out. -/
def scriptWalk (fuel : Nat) (c : Out K V → σ → Script (SetOp K) (Out K V) σ) (keys : Bool) :
    JM (Beside σ (Index K V)) (List Unit) :=
  if keys then Gen.KeyIndexedSetWalk.forEach fuel (consumer (step fuel) fun k => c (.key k))
  else Gen.KeyIndexedSetWalk.forEachEntry fuel (consumer (step fuel) fun e => c (.int e))

/-- What the walk hands out. -/
def kind : Bool → Kind
  | true => .keys
  | false => .entries

theorem scriptWalk_eq (fuel : Nat) (c : Out K V → σ → Script (SetOp K) (Out K V) σ) (keys : Bool) :
    scriptWalk fuel c keys =
      Gen.KeyValueIndexedMapWalk.forEachEntry fuel (Map.playing (step fuel) c (kind keys)) := by
  cases keys
  · simp only [scriptWalk, walk_entry]; rfl
  · simp only [scriptWalk, walk_key, Map.walk_keys, if_true, kind]
    congr 1; funext e
    unfold Map.playing handed
    simp only
    rw [Map.lift_map_bind]; rfl

theorem like_set {fuel : Nat} (hf : 2 ^ 31 ≤ fuel) (keys : Bool) :
    Map.Sim fuel (kind keys) (step (K := K) (V := V) fuel) SetOp.op IntArg (fun o s => ∃ w, o = withV s w) (Made fuel) where
  heads h := by obtain ⟨w, rfl⟩ := h; rfl
  nexts h := by obtain ⟨w, rfl⟩ := h; rfl
  size h := by obtain ⟨w, rfl⟩ := h; rfl
  hand := by
    intro o s e b h he
    obtain ⟨w, rfl⟩ := h
    cases keys
    · unfold kind handed at he ⊢
      injection he with he _
      subst he; rfl
    · unfold kind handed at he ⊢
      simp only at he ⊢
      obtain ⟨k, s1, h1, h2⟩ := jm_bind_inv he
      have hs := state_rd h1
      subst hs
      have hb : 0 ≤ e ∧ e < s1.keys.len := by
        by_cases hb : 0 ≤ e ∧ e < s1.keys.len
        · exact hb
        · unfold rd at h1
          simp only at h1
          rw [if_neg hb] at h1
          cases h1
      rw [rd_ok Index.keys hb] at h1
      injection h1 with h1 _
      have hb' : 0 ≤ e ∧ e < (withV s1 w).keys.len := hb
      rw [JM.bind_ok (rd_ok Index.keys hb')]
      injection h2 with h2 _
      rw [← h2, ← h1]; rfl
  arg h := h.op
  call h hm h1 h2 := by
    obtain ⟨w, rfl⟩ := h
    obtain ⟨F, hI⟩ := reach_inv (hm.reach hf)
    exact step_of hI fuel _ w
  keep h h1 h2 := h.call _ h1 h2

end Link.SetL

/-- C113, indexed set: as `C113_generated_index_partial`, for the generated `forEachEntry` and `forEach`. -/
theorem C113_generated_set_partial {σ K V : Type} [Inhabited K] [Inhabited V] {fuel : Nat} (hf : 2 ^ 31 ≤ fuel)
    {s : Index K V} {a : Abs K V} (h : Link.SetL.Made fuel s a) (keys : Bool) (l : List Int)
    (hl : (Link.SetL.step fuel .forEachEntry s).out = .ok (.ints l))
    (c : Out K V → σ → Script (Link.SetL.SetOp K) (Out K V) σ) (u : σ) (P : Except Err Unit → σ → List Int × Abs K V → Prop)
    (hw : Sure (fun o a => Link.SetL.IntArg o ∧ indexMay o.op a) (fun o => indexCan o.op) (indexMove (Link.SetL.kind keys)) c P
      (l, a) u) :
    ∃ r u' b s', P r u' b ∧ Ended (Link.SetL.scriptWalk fuel c keys ⟨s, u⟩) r ⟨s', u'⟩ ∧ Link.SetL.Made fuel s' b.2 := by
  obtain ⟨s', w, rfl, hm⟩ := h.inv hf
  obtain ⟨F, hI⟩ := reach_inv (hm.reach hf)
  rw [(Link.SetL.step_of hI fuel .forEachEntry w).1] at hl
  obtain rfl := Link.Map.order_of hf hm hl
  rw [Link.SetL.scriptWalk_eq]
  exact Link.Map.script_walk (Link.SetL.like_set hf keys) hf h ⟨w, rfl⟩ hm u hw

/-- The set of four keys in one chain, made by the generated class. -/
def Link.SetL.fourKeys (fuel : Nat) : Res (Index Int Int) Unit :=
  match Gen.KeyIndexedSet.init2 (fun k : Int => BitVec.ofInt 32 k) (fun a b => a == b) 8 (3, 4) rawIndex with
  | .ok _ s => .ok () (runM (Link.SetL.step fuel) s [.add 1, .add 9, .add 17, .add 25]).2
  | .err e s => .err e s

/-- A consumer of keys: at 25 it removes 9 and notes the entry; at 1 it asks for 9 and throws if it is gone. -/
def setSweeping (b : Out Int Int) (u : List Int) : Script (Link.SetL.SetOp Int) (Out Int Int) (List Int) :=
  match b with
  | .key 25 => .call (.remove 9) fun r => match r with
    | .ok (.int e) => .done (u ++ [e])
    | _ => .fail .illegalState u
  | .key 1 => .call (.containsKey 9) fun r => match r with
    | .ok (.bool false) => .fail .keyNotFound u
    | _ => .done u
  | _ => .done u

/- `setSweeping` on a set of four keys in one chain meets the hypothesis of `C113_generated_set_partial` ... -/
example : Sure (fun o a => Link.SetL.IntArg o ∧ indexMay o.op a) (fun o => indexCan o.op) (indexMove (Link.SetL.kind true))
    setSweeping (fun r u b => r = .error .keyNotFound ∧ u = [1] ∧ b.2.live = [0, 2, 3])
    ([3, 2, 1, 0], (⟨[⟨0, 1, 0⟩, ⟨1, 9, 0⟩, ⟨2, 17, 0⟩, ⟨3, 25, 0⟩], [], [], 4, fun k : Int => BitVec.ofInt 32 k,
      fun a b => a == b⟩ : Abs Int Int)) [] := by
  refine .step (fun r u b => r = .ok () ∧ u = [1] ∧ b = ([2, 1, 0], (⟨[⟨0, 1, 0⟩, ⟨2, 17, 0⟩, ⟨3, 25, 0⟩], [], [1], 4,
    fun k : Int => BitVec.ofInt 32 k, fun a b => a == b⟩ : Abs Int Int))) rfl ⟨⟨trivial, trivial, ?_⟩, fun r b h => ?_⟩
    (by simp) ?_
  · intro r hr
    have : r = ⟨1, 9, 0⟩ := Option.some.inj (hr.symm.trans rfl)
    subst this; decide
  · obtain ⟨h, rfl⟩ := h
    have h : r = .ok (.int 1) := h
    subst h
    exact ⟨rfl, rfl, rfl⟩
  rintro u b ⟨-, rfl, rfl⟩
  refine .step (fun r u b => r = .ok () ∧ u = [1] ∧ b = ([1, 0], (⟨[⟨0, 1, 0⟩, ⟨2, 17, 0⟩, ⟨3, 25, 0⟩], [], [1], 4,
    fun k : Int => BitVec.ofInt 32 k, fun a b => a == b⟩ : Abs Int Int))) rfl ⟨rfl, rfl, rfl⟩ (by simp) ?_
  rintro u b ⟨-, rfl, rfl⟩
  refine .skip rfl (.step (fun r u b => r = .error .keyNotFound ∧ u = [1] ∧ b.2.live = [0, 2, 3]) rfl
    ⟨⟨trivial, trivial, trivial⟩, fun r b h => ?_⟩ (fun _ _ _ h => h) (by simp))
  obtain ⟨h, rfl⟩ := h
  have h : r = .ok (.bool false) := h
  subst h
  exact ⟨rfl, rfl, rfl⟩

/- ... and this is the run. -/
example : (match Link.SetL.scriptWalk 40 setSweeping true ⟨(Link.SetL.fourKeys 40).state, []⟩ with
    | .err e t => some (e, t.ext, (Link.SetL.step 40 .forEach t.obj).out)
    | _ => none) = some (.keyNotFound, [1], .ok (.keys [25, 17, 1])) := by decide +kernel

/-- C113 is false of an indexed set whose consumer adds a key: 2, which was not there when the walk began, is handed out,
and 7 is not. -/
theorem C113_generated_set_refuted :
    (match Gen.KeyIndexedSet.init2 (fun k : Int => BitVec.ofInt 32 k) (fun a b => a == b) 16 (3, 4)
        (rawIndex : Index Int Int) with
    | .ok _ s => match Link.SetL.scriptWalk 40 (fun b (u : List (Out Int Int)) => match b with
          | .key 1 => .call (.add 2) fun _ => .done (u ++ [b])
          | _ => .done (u ++ [b])) true ⟨(runM (Link.SetL.step 40) s [.add 1, .add 4, .add 7]).2, []⟩ with
      | .ok _ t => some t.ext
      | _ => none
    | _ => none) = some [.key 1, .key 2, .key 4] := by decide +kernel

end Verif
