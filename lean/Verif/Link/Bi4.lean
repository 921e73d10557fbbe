import Verif.Link.Bi3
/-! The two-sided collections: the calls that edit, histories, constructors. -/
set_option linter.unusedSectionVars false
namespace Verif.Link.BiL
open Verif Verif.Gen BiSpec
variable {α β γ : Type} {s : Bi} {i : Ideal} {d : Dir} {many : Bool}

/-! ### bounds that all calls keep -/

/-- The `int` fields of the set and the lengths of the arrays fit. -/
def Bounds (s : Bi) : Prop := Map.Bx s.mappings ∧ ∀ d, (Bi.side d s).nexts.len < 2 ^ 31

/-- one half -/
def Short (x : Side) : Prop := x.nexts.len < 2 ^ 31

theorem keeps_mappings {m : JM LIx α} (h : Keeps Map.Bx m) : Keeps Bounds (Bi.onMappings m) := by
  intro s hs
  have := h _ hs.1
  simp only [Bi.onMappings]
  cases hm : m s.mappings with
  | ok a t => rw [hm] at this; exact ⟨this, fun d => by cases d; exact hs.2 .left; exact hs.2 .right⟩
  | err a t => rw [hm] at this; exact ⟨this, fun d => by cases d; exact hs.2 .left; exact hs.2 .right⟩

theorem keeps_side {m : JM Side α} (h : Keeps Short m) : Keeps Bounds (Bi.onSide d m) := by
  intro s hs
  have := h _ (hs.2 d)
  have h2 := hs.2
  simp only [Bi.onSide]
  cases hm : m (Bi.side d s) with
  | ok a t =>
    rw [hm] at this
    refine ⟨by cases d <;> exact hs.1, fun d' => ?_⟩
    cases d <;> cases d' <;> first | exact this | exact h2 .left | exact h2 .right
  | err a t =>
    rw [hm] at this
    refine ⟨by cases d <;> exact hs.1, fun d' => ?_⟩
    cases d <;> cases d' <;> first | exact this | exact h2 .left | exact h2 .right

theorem short_of_local {m : JM Side (Arr Int)} {f : Arr Int → Side → Side}
    (hm : ∃ r, ∀ s, m s = ofExcept r s) (hf : ∀ x s, Short s → Short (f x s)) :
    Keeps Short (m >>= fun x => modify (f x)) :=
  .bind (.ofLocal hm) fun _ => .modify fun _ h => hf _ _ h

theorem ensureKey_short (k : Int) : Keeps Short (Side.ensureKey k) := by
  unfold Side.ensureKey
  refine .bind .get fun s => ?_
  have l := ensureEntry_local Side s.heads k (-1)
  refine .bind (.ofLocal ⟨l.choose, l.choose_spec.1⟩) fun _ => .bind (.modify fun _ h => h) fun _ => ?_
  cases s.count with
  | none => exact .pure _
  | some c =>
    have l := ensureEntry_local Side c k 0
    exact .bind (.ofLocal ⟨l.choose, l.choose_spec.1⟩) fun _ => .modify fun _ h => h

theorem ensureEntry_short (e : Int) : Keeps Short (Side.ensureEntry e) := by
  intro s hs
  unfold Side.ensureEntry
  rw [JM.bind_ok (JM.get_apply _)]
  obtain ⟨r, hr, hl⟩ := ensureEntry_local Side s.nexts e (-1)
  rw [JM.bind_apply, hr]
  cases r with
  | error x => exact hs
  | ok b =>
    have hb := hl b rfl
    have hb' : Short { s with nexts := b } := by
      have : (s.nexts.len : Int) < 2 ^ 31 := by have h : s.nexts.len < 2 ^ 31 := hs; omega
      have := hb.2.2 this
      show b.len < 2 ^ 31
      omega
    have l := ensureEntry_local Side s.prevs e (-1)
    have k : Keeps Short (Verif.ensureEntry s.prevs e (-1) >>= fun p => modify fun t : Side => { t with prevs := p }) :=
      short_of_local ⟨l.choose, l.choose_spec.1⟩ fun _ _ h => h
    exact k _ hb'

theorem wrHeads_short (i v : Int) : Keeps Short (Side.wrHeads i v) :=
  Keeps.wr (J := Short) (arr := Side.heads) (put := fun (t : Side) a => { t with heads := a }) (fun _ _ h _ => h) i v
theorem wrPrevs_short (i v : Int) : Keeps Short (Side.wrPrevs i v) :=
  Keeps.wr (J := Short) (arr := Side.prevs) (put := fun (t : Side) a => { t with prevs := a }) (fun _ _ h _ => h) i v
theorem wrNexts_short (i v : Int) : Keeps Short (Side.wrNexts i v) :=
  .wr (fun s x h hl => by have h : s.nexts.len < 2 ^ 31 := h; show x.len < 2 ^ 31; omega) _ _

theorem addCount_short (k c : Int) : Keeps Short (Side.addCount k c) := by
  unfold Side.addCount
  refine .bind .get fun s => ?_
  cases s.count with
  | none => exact .pure _
  | some c => exact .bind (.rdA _ _) fun _ => .modify fun _ h => h

theorem insert_short (k e : Int) : Keeps Short (Side.insertEntry k e) :=
  .bind (ensureKey_short k) fun _ => .bind (.rd _) fun _ =>
    .bind (.when (.bind (ensureEntry_short e) fun _ => .bind (wrNexts_short _ _) fun _ => wrPrevs_short _ _)) fun _ =>
    .bind (wrHeads_short _ _) fun _ => addCount_short _ _

theorem remove_short (k e : Int) : Keeps Short (Side.removeEntry k e) := by
  have tail : Keeps Short (do Side.wrPrevs e (-1); Side.wrNexts e (-1); Side.addCount k (-1)) :=
    .bind (wrPrevs_short _ _) fun _ => .bind (wrNexts_short _ _) fun _ => addCount_short _ _
  unfold Side.removeEntry
  refine .bind (.rd _) fun h => ?_
  dsimp only
  split
  · exact .bind (.rd _) fun _ => .bind (wrHeads_short _ _) fun _ => tail
  · exact .bind (.rd _) fun _ => .bind (.rd _) fun _ => .bind (.when (wrNexts_short _ _)) fun _ =>
      .bind (.when (wrPrevs_short _ _)) fun _ => tail

theorem countOf_short (k : Int) : Keeps Short (Side.countOf k) := by
  unfold Side.countOf
  refine .bind .get fun s => ?_
  cases s.count with
  | none => exact .throw _
  | some c => exact .ite (.rdA _ _) (.pure _)

theorem setCur_bounds (k : Kind) (f : Bi → Cur) : Keeps Bounds (modify fun t => Bi.setCur d k t (f t)) :=
  .modify fun s h => ⟨by rw [Bi.mappings_setCur]; exact h.1, fun d' => by rw [Bi.side_setCur]; exact h.2 d'⟩

theorem size_bx : Keeps (Map.Bx (K := BitVec 64) (V := Unit)) Index.getSize := .same fun _ => rfl
theorem keyAt_bx (e : Int) : Keeps (Map.Bx (K := BitVec 64) (V := Unit)) (Index.getKeyAt e) := .rd _

theorem unstep {J : LIx → Prop} {m : JM LIx α} {f : α → Index.Out (BitVec 64) Unit}
    (h : Keeps J (m >>= fun x => pure (f x))) : Keeps J m := by
  intro s hs
  have := h s hs
  rw [JM.bind_apply] at this
  cases hm : m s with
  | ok a t => rw [hm] at this; exact this
  | err e t => rw [hm] at this; exact this

theorem lookup_bx (k : BitVec 64) : Keeps (Map.Bx (K := BitVec 64) (V := Unit)) (Index.lookupEntry k) :=
  unstep (f := .int) (Map.step_bx (.lookupEntry k))

theorem insertRight_bounds (r e : Int) : Keeps Bounds (Bi.insertRight r e) :=
  .bind .get fun _ => .when (keeps_side (insert_short _ _))
theorem removeRight_bounds (r e : Int) : Keeps Bounds (Bi.removeRight r e) :=
  .bind .get fun _ => .when (keeps_side (remove_short _ _))

theorem getLeftAt_bounds (e : Int) : Keeps Bounds (Bi.getLeftAt e) := .same fun _ => Bi.getLeftAt_state e
theorem getRightAt_bounds (e : Int) : Keeps Bounds (Bi.getRightAt e) := .same fun _ => Bi.getRightAt_state e

theorem iterReset_bounds (k : Kind) : Keeps Bounds (Bi.iterReset d k) := by
  unfold Bi.iterReset
  refine .bind .get fun t => ?_
  have hr : ∀ i, Keeps Bounds (Bi.onSide d (rd Side.heads i)) := fun i => keeps_side (.rd i)
  cases k
  · dsimp only
    split
    · exact .bind (hr _) fun _ => setCur_bounds _ _
    · exact .bind (.pure _) fun _ => setCur_bounds _ _
  · exact .bind (hr _) fun _ => setCur_bounds _ _

theorem iterator_bounds (k : Kind) : Keeps Bounds (Bi.iterator d k) :=
  .bind (setCur_bounds _ _) fun _ => iterReset_bounds k

theorem hasNext_bounds (k : Kind) : Keeps Bounds (Bi.hasNext d k) := .bind .get fun _ => .pure _

theorem next_bounds (k : Kind) : Keeps Bounds (Bi.next d k) := by
  unfold Bi.next
  refine .bind .get fun t => ?_
  have tail : ∀ (x e : Int), Keeps Bounds (do
      let n ← Bi.onSide d (rd Side.nexts e)
      modify fun t => Bi.setCur d k t { Bi.cur d k t with entry := n }
      pure x) := fun x e => .bind (keeps_side (.rd _)) fun _ => .bind (setCur_bounds _ _) fun _ => .pure _
  cases k
  · exact .bind (.pure _) fun _ => tail _ _
  · exact .bind (.same fun s => lookupFunc_state _ _ s) fun _ => tail _ _

theorem iterAll_bounds (k : Kind) : ∀ n, Keeps Bounds (Bi.iterAll d k n)
  | 0 => .throw _
  | n + 1 => by
    unfold Bi.iterAll
    exact .bind (hasNext_bounds k) fun _ => .ite (.bind (next_bounds k) fun _ => .bind (iterAll_bounds k n) fun _ => .pure _) (.pure _)

theorem step_bounds (o : Bi.Op) : Keeps Bounds (Bi.step o) := by
  have ix := Map.step_bx (K := BitVec 64) (V := Unit)
  cases o with
  | put l r =>
    refine .bind ?_ fun _ => .pure _
    exact .bind (keeps_mappings size_bx) fun _ => .bind (keeps_mappings (unstep (f := .int) (ix (.add _)))) fun _ =>
      .bind (keeps_mappings size_bx) fun _ => .ite (.pure _)
        (.bind (keeps_side (insert_short _ _)) fun _ => .bind (insertRight_bounds _ _) fun _ => .pure _)
  | remove l r =>
    refine .bind ?_ fun _ => .pure _
    exact .bind (keeps_mappings (lookup_bx _)) fun _ => .ite (.pure _)
      (.bind (keeps_side (remove_short _ _)) fun _ => .bind (removeRight_bounds _ _) fun _ =>
        .bind (keeps_mappings (unstep (f := fun _ => .unit) (ix (.removeAt _)))) fun _ => .pure _)
  | removeAt e =>
    refine .bind ?_ fun _ => .pure _
    exact .bind (keeps_mappings (keyAt_bx _)) fun _ =>
      .bind (keeps_side (remove_short _ _)) fun _ => .bind (removeRight_bounds _ _) fun _ =>
        .bind (keeps_mappings (unstep (f := fun _ => .unit) (ix (.removeAt _)))) fun _ => .pure _
  | removeAtAndReserve e =>
    refine .bind ?_ fun _ => .pure _
    exact .bind (keeps_mappings (keyAt_bx _)) fun _ =>
      .bind (keeps_mappings (unstep (f := fun _ => .unit) (ix (.removeAtAndReserve _)))) fun _ =>
      .bind (keeps_side (remove_short _ _)) fun _ => removeRight_bounds _ _
  | freeReservedEntry e =>
    exact .bind (keeps_mappings (unstep (f := fun _ => .unit) (ix (.freeReservedEntry _)))) fun _ => .pure _
  | contains l r => exact .bind (keeps_mappings (unstep (f := .bool) (ix (.containsKey _)))) fun _ => .pure _
  | lookupEntry l r => exact .bind (keeps_mappings (lookup_bx _)) fun _ => .pure _
  | size => exact .bind (keeps_mappings size_bx) fun _ => .pure _
  | getLeftAt e => exact .bind (getLeftAt_bounds e) fun _ => .pure _
  | getRightAt e => exact .bind (getRightAt_bounds e) fun _ => .pure _
  | forEachEntry => exact .bind (keeps_mappings (unstep (f := .ints) (ix .forEachEntry))) fun _ => .pure _
  | withKey d key =>
    exact .bind (.modify fun s h => ⟨by rw [Bi.mappings_setMap]; exact h.1, fun d' => by rw [Bi.side_setMap]; exact h.2 d'⟩) fun _ => .pure _
  | count d => exact .bind (.bind .get fun _ => keeps_side (countOf_short _)) fun _ => .pure _
  | forEachOf d k =>
    exact .bind (.bind (iterator_bounds k) fun _ => .bind .get fun _ => iterAll_bounds k _) fun _ => .pure _
  | iterator d k => exact .bind (iterator_bounds k) fun _ => .pure _
  | iterReset d k => exact .bind (iterReset_bounds k) fun _ => .pure _
  | hasNext d k => exact .bind (hasNext_bounds k) fun _ => .pure _
  | next d k => exact .bind (next_bounds k) fun _ => .pure _

end Verif.Link.BiL
