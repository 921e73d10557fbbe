import Verif.Link.Index2
/-! `KeyValueIndexedMap.ftl`: the generated removals, `clear` and iteration agree with the model. -/
set_option linter.unusedSectionVars false
namespace Verif.Link.Map
open Verif Verif.Gen Index
variable {K V : Type} [Inhabited K] [Inhabited V]

theorem free_keeps (n e : Int) : Keeps (Bd (K := K) (V := V) n) (freeReservedEntry e) :=
  .bind .get fun _ => .bind (wrNexts_keeps _ _ _) fun _ =>
    .bind (.modify fun _ h => ⟨h.size, h.cap, h.heads, h.max⟩) fun _ => .bind (wrKeys_keeps _ _ _) fun _ =>
    wrValues_keeps _ _ _

theorem unlink_keeps (n h p x : Int) : Keeps (Bd (K := K) (V := V) n) (unlink h p x) :=
  .ite (wrHeads_keeps _ _ _) (wrNexts_keeps _ _ _)

/-- what the model does once it has found the entry -/
def removeFound (head : Int) (free : Bool) (prev e : Int) : JM (Index K V) Unit := do
  let next ← rd Index.nexts e
  unlink head prev next
  if free then freeReservedEntry e else wrNexts e (-1)
  modify fun t => { t with size := t.size - 1 }
  bumpMod

theorem removeFound_sim {n : Int} (hn : -2 ^ 31 ≤ n - 1 ∧ n - 1 < 2 ^ 31) (head : Int) (free : Bool) (prev e : Int)
    {β : Type} (x : β) {s : Index K V} (hs : Bd n s) :
    Sim (fun _ r => r = x) (removeFound head free prev e) (do
        let v6 ← rd Index.nexts e
        let next := v6
        (if (decide (prev < 0)) = true then do
            wr Index.heads (fun self a => { self with heads := a }) head next
            pure ()
          else do
            wr Index.nexts (fun self a => { self with nexts := a }) prev next
            pure ())
        (if free = true then do
            KeyValueIndexedMap.freeReservedEntry e
            pure ()
          else do
            wr Index.nexts (fun self a => { self with nexts := a }) e (-1)
            pure ())
        let s7 ← get
        let v8 := i32 (s7.size - 1)
        modify fun self => { self with size := v8 }
        let s9 ← get
        let v10 := i32 (s9.modificationCount + 1)
        modify fun self => { self with modificationCount := v10 }
        pure x) s := by
  unfold removeFound
  simp only [bind_unit, decide_eq_true_eq, freeReservedEntry_eq]
  refine .stepS (rd_state _ _ _) fun nx _ => ?_
  refine .bind_eq (m := unlink head prev nx) .rfl fun _ t ht => ?_
  have bt : Bd n t := by have := unlink_keeps n head prev nx s hs; rw [ht] at this; exact this
  have key : ∀ u : Index K V, Bd n u → Sim (fun _ r => r = x)
      ((modify fun t : Index K V => { t with size := t.size - 1 }) >>= fun _ => bumpMod)
      (do
        let s7 ← get
        modify fun self : Index K V => { self with size := i32 (s7.size - 1) }
        let s9 ← get
        modify fun self => { self with modificationCount := i32 (s9.modificationCount + 1) }
        pure x) u := by
    intro u bu
    refine .right rfl (.modify (by rw [bu.size, i32_of_range hn]) (.right rfl ?_))
    exact ⟨x, rfl, rfl⟩
  by_cases hf : free = true
  · rw [if_pos hf, if_pos hf]
    refine .step fun _ u hu => ?_
    exact key u (by have := free_keeps n e t bt; rw [hu] at this; exact this)
  · rw [if_neg hf, if_neg hf]
    refine .step fun _ u hu => ?_
    exact key u (by have := wrNexts_keeps n e (-1) t bt; rw [hu] at this; exact this)

/-- the end of the model's `removeKey` -/
def removeEnd (head : Int) (free : Bool) : Option (Int × Int) → JM (Index K V) Int
  | none => pure (-1)
  | some (prev, e) => removeFound head free prev e >>= fun _ => pure e

def Removed (i : Int) (r : Flow Int Int) : Prop := r = .ret i ∨ (i = -1 ∧ ∃ p, r = .next p)

theorem removeLoop_sim {n : Int} (hn : -2 ^ 31 ≤ n - 1 ∧ n - 1 < 2 ^ 31) (key : K) (head : Int) (free : Bool) :
    ∀ (m f : Nat) (prev e : Int) (s : Index K V), m ≤ f → Bd n s →
    Sim Removed (findKeyLoop key m prev e >>= removeEnd head free)
      (KeyValueIndexedMap.removeKey_loop1 key free head f prev e) s
  | 0, _, _, _, _, _, _ => by unfold findKeyLoop; exact .inl rfl
  | m + 1, 0, _, _, _, h, _ => absurd h (by omega)
  | m + 1, f + 1, prev, e, s, h, hs => by
    unfold findKeyLoop KeyValueIndexedMap.removeKey_loop1
    by_cases he : e ≥ 0
    · rw [if_pos he, if_pos (show decide (e ≥ 0) = true by simpa using he)]
      simp only [assoc]
      refine .stepS (rd_state _ _ _) fun k _ => .get ?_
      by_cases hq : s.equalFunc key k = true
      · rw [if_pos hq, if_neg (by simp [hq])]
        refine .left rfl ?_
        unfold removeEnd
        dsimp only
        exact .tailL (removeFound_sim hn head free prev e (Flow.ret e) hs) fun _ _ _ _ hb => .pure (.inl hb)
      · rw [if_neg hq, if_pos (by simp [hq])]
        simp only [assoc]
        refine .stepS (rd_state _ _ _) fun nx _ => ?_
        exact removeLoop_sim hn key head free m f e nx s (by omega) hs
    · rw [if_neg he, if_neg (by simpa using he)]
      refine .left rfl ?_
      exact .pure (.inr ⟨rfl, _, rfl⟩)

theorem removeKey_def (key : K) (free : Bool) : (removeKey key free : JM (Index K V) Int) = (do
    let head ← computeHead key
    let headEntry ← rd Index.heads head
    if headEntry < 0 then pure (-1)
    else do
      let s ← get
      findKeyLoop key (s.nexts.len + 1) (-1) headEntry >>= removeEnd head free) := by
  unfold removeKey
  congr 1; funext head; congr 1; funext he; congr 2; funext s; congr 1; funext found
  cases found with
  | none => rfl
  | some p =>
    obtain ⟨p, e⟩ := p
    simp only [removeEnd, removeFound, assoc]
    congr 1; funext nx; congr 1; funext _
    cases free <;> simp only [assoc, if_true, if_false, Bool.false_eq_true]

theorem removeKey_sim (fuel : Nat) (hf : 2 ^ 31 ≤ fuel) (key : K) (free : Bool) {n : Int} {s : Index K V}
    (hs : Bd n s) (hl : s.nexts.len < 2 ^ 31 - 1) (hn : -2 ^ 31 ≤ n - 1 ∧ n - 1 < 2 ^ 31) :
    Sim Eq (removeKey key free) (KeyValueIndexedMap.removeKey fuel key free) s := by
  rw [removeKey_def]
  unfold KeyValueIndexedMap.removeKey
  rw [computeHead_eq]
  refine .stepS rfl fun head _ => ?_
  refine .stepS (rd_state _ _ _) fun e _ => ?_
  refine .ite (by simp) (fun _ => .pure rfl) fun _ => ?_
  refine .left (JM.get_apply _) ?_
  dsimp only
  refine .tailR (removeLoop_sim hn key head free (s.nexts.len + 1) fuel (-1) e s (by omega) hs) fun a b t _ hr => ?_
  rcases hr with rfl | ⟨rfl, p, rfl⟩
  · exact .pure rfl
  · exact .pure rfl

theorem removeAtAndReserve_sim (fuel : Nat) (hf : 2 ^ 31 ≤ fuel) (e : Int) {n : Int} {s : Index K V}
    (hs : Bd n s) (hl : s.nexts.len < 2 ^ 31 - 1) (hn : -2 ^ 31 ≤ n - 1 ∧ n - 1 < 2 ^ 31) :
    Sim Eq (removeAtAndReserve e) (KeyValueIndexedMap.removeAtAndReserve fuel e) s := by
  unfold removeAtAndReserve KeyValueIndexedMap.removeAtAndReserve
  refine .stepS (rd_state _ _ _) fun k _ => ?_
  exact .bind_eq (removeKey_sim fuel hf k false hs hl hn) fun _ _ _ => .rfl

theorem remove_sim (fuel : Nat) (hf : 2 ^ 31 ≤ fuel) (key : K) {n : Int} {s : Index K V}
    (hs : Bd n s) (hl : s.nexts.len < 2 ^ 31 - 1) (hn : -2 ^ 31 ≤ n - 1 ∧ n - 1 < 2 ^ 31) :
    Sim Eq (remove key) (KeyValueIndexedMap.remove1 fuel key) s := by
  unfold KeyValueIndexedMap.remove1
  exact removeKey_sim fuel hf key true hs hl hn

/-- every link fits an `int` -/
def Cells (s : Index K V) : Prop := ∀ i : Int, 0 ≤ i → i < s.nexts.len → -2 ^ 31 ≤ s.nexts.get i

theorem getHeadLoop_sim : ∀ (m f : Nat) (e : Int) (s : Index K V), m ≤ f → Cells s → -2 ^ 31 ≤ e →
    Sim (fun a b => a = i32 (i32 (-b) - 1)) (getHeadLoop m e) (KeyValueIndexedMap.getHead_loop1 f e) s
  | 0, _, _, _, _, _, _ => .diverge
  | m + 1, 0, _, _, h, _, _ => absurd h (by omega)
  | m + 1, f + 1, e, s, h, hc, he => by
    unfold getHeadLoop KeyValueIndexedMap.getHead_loop1
    refine .ite (by simp) (fun h0 => ?_) fun h0 => .pure ?_
    · refine .stepS (rd_state _ _ _) fun nx hx => ?_
      refine getHeadLoop_sim m f nx s (by omega) hc ?_
      simp only [rd] at hx
      split at hx
      · rename_i hi
        injection hx with h1 _
        rw [← h1]; exact hc e hi.1 hi.2
      · cases hx
    · have h1 : i32 (i32 (-e) - 1) = i32 (-e - 1) := by
        unfold i32; omega
      rw [h1, i32_of_range (by omega)]

theorem getHeadLoop_state : ∀ (m : Nat) (e : Int) (s : Index K V), (getHeadLoop m e s).state = s
  | 0, _, _ => rfl
  | m + 1, e, s => by
    unfold getHeadLoop
    by_cases he : e ≥ 0
    · rw [if_pos he, JM.bind_apply]
      have h1 := rd_state Index.nexts e s
      cases hr : rd Index.nexts e s with
      | err x t => rw [hr] at h1; exact h1
      | ok x t =>
        rw [hr] at h1
        obtain rfl : t = s := h1
        exact getHeadLoop_state m x t
    · rw [if_neg he]; rfl

/-- the end of the model's `removeAt` -/
def removeAtEnd (head entry : Int) : Option Int → JM (Index K V) Unit
  | none => pure ()
  | some prev => removeFound head true prev entry

theorem removeAtLoop_sim {n : Int} (hn : -2 ^ 31 ≤ n - 1 ∧ n - 1 < 2 ^ 31) (head entry : Int) :
    ∀ (m f : Nat) (prev e : Int) (s : Index K V), m ≤ f → Bd n s →
    Sim (fun _ _ => True) (findEntryLoop entry m prev e >>= removeAtEnd head entry)
      (KeyValueIndexedMap.removeAt_loop1 entry head f prev e) s
  | 0, _, _, _, _, _, _ => by unfold findEntryLoop; exact .inl rfl
  | m + 1, 0, _, _, _, h, _ => absurd h (by omega)
  | m + 1, f + 1, prev, e, s, h, hs => by
    unfold findEntryLoop KeyValueIndexedMap.removeAt_loop1
    by_cases he : e ≥ 0
    · rw [if_pos he, if_pos (show decide (e ≥ 0) = true by simpa using he)]
      by_cases hq : e = entry
      · subst hq
        rw [if_pos rfl, if_neg (show ¬ decide (e ≠ e) = true by simp)]
        refine .left rfl ?_
        have := removeFound_sim hn head true prev e prev hs
        simp only [if_true, bind_unit] at this ⊢
        exact this.mono fun _ _ _ => trivial
      · rw [if_neg hq, if_pos (show decide (e ≠ entry) = true by simp [hq])]
        simp only [assoc]
        refine .stepS (rd_state _ _ _) fun nx _ => ?_
        exact removeAtLoop_sim hn head entry m f e nx s (by omega) hs
    · rw [if_neg he, if_neg (by simpa using he)]
      refine .left rfl ?_
      exact .pure trivial

theorem removeAt_def (entry : Int) : (removeAt entry : JM (Index K V) Unit) = (do
    let s ← get
    let head ← getHeadLoop (s.nexts.len + 1) entry
    let e ← rd Index.heads head
    findEntryLoop entry (s.nexts.len + 1) (-1) e >>= removeAtEnd head entry) := by
  unfold removeAt
  congr 1

theorem removeAt_sim (fuel : Nat) (hf : 2 ^ 31 ≤ fuel) (entry : Int) (he : -2 ^ 31 ≤ entry) {n : Int} {s : Index K V}
    (hs : Bd n s) (hc : Cells s) (hl : s.nexts.len < 2 ^ 31 - 1) (hn : -2 ^ 31 ≤ n - 1 ∧ n - 1 < 2 ^ 31) :
    Sim Eq (removeAt entry) (KeyValueIndexedMap.removeAt fuel entry) s := by
  rw [removeAt_def]
  unfold KeyValueIndexedMap.removeAt KeyValueIndexedMap.getHead
  simp only [assoc]
  refine .left (JM.get_apply _) ?_
  refine .bind (getHeadLoop_sim (s.nexts.len + 1) fuel entry s (by omega) hc he) fun a b t ht hab => ?_
  have := getHeadLoop_state (s.nexts.len + 1) entry s
  rw [ht] at this
  obtain rfl : t = s := this
  refine .right rfl ?_
  rw [← hab]
  refine .stepS (rd_state _ _ _) fun e _ => ?_
  exact .tailR (removeAtLoop_sim hn a entry (t.nexts.len + 1) fuel (-1) e t (by omega) hs) fun _ _ _ _ _ => .pure rfl

end Verif.Link.Map
