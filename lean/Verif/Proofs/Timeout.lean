import Verif.Proofs.Heap5
import Verif.Spec.Timeout
import Mathlib.Data.List.Nodup
/-! The timeout manager: every schedule is legal. -/
namespace Verif.TimeoutProof
open Verif.Heap Verif.HeapSpec Verif.HeapProof Verif.Timeout Verif.TimeoutSpec
open Verif.Cmp (i64 asc64 longCompare)

/-- The item an ideal heap entry stands for. -/
def itemOf (a : Abs Int Int) (e : Int) : Item := ⟨e, a.valOf e, a.keyOf e⟩

structure Rel (s : Manager) (a : Abs Int Int) (p : List Item) (hd : List Int) : Prop where
  inv : Inv s.heap a
  ord : Ordered (fun _ => True) s.heap a
  pend : p.Perm (a.live.map (itemOf a))
  handed : ∀ e ∈ hd, 0 ≤ e ∧ e < used a
  cap : ∃ k : Nat, k ≤ 25 ∧ a.cap = 16 * 2 ^ k
  cmp : a.cmp = longAsc
  rng : ∀ e ∈ a.live, 0 ≤ a.keyOf e ∧ a.keyOf e < 2 ^ 63

theorem asc64_total : TotalOn (fun _ => True) asc64 := by
  constructor
  · intro a b _ _
    unfold asc64 longCompare
    split <;> split <;> (try split) <;> (try split) <;> omega
  · intro x y z _ _ _
    unfold asc64 longCompare
    split <;> split <;> split <;> (try split) <;> (try split) <;> (try split) <;> omega

theorem asc64_le {a b : Int} (h : asc64 a b ≤ 0) : a ≤ b := by
  unfold asc64 longCompare at h
  split at h
  · omega
  · split at h <;> omega

theorem new_rel {n : Nat} {s : Manager} (h : Timeout.new n = .ok s) :
    Rel s (empty longAsc 0 0 16) [] [] ∧ s.latch = n := by
  unfold Timeout.new at h
  split at h
  · rename_i h0 hn
    simp at h; subst h
    exact ⟨⟨new_inv hn, new_ordered hn asc64_total, by simp [empty], by simp, ⟨0, by simp [empty]⟩, rfl, by simp [empty]⟩, rfl⟩
  · simp at h

theorem onHeap_ok {α : Type} {m : JM (Heap Int Int) α} {s : Manager} {x : α} {h : Heap Int Int} (e : m s.heap = .ok x h) :
    onHeap m s = .ok x { s with heap := h } := by simp [onHeap, e]

theorem onHeap_err {α : Type} {m : JM (Heap Int Int) α} {s : Manager} {x : Err} {h : Heap Int Int} (e : m s.heap = .err x h) :
    onHeap m s = .err x { s with heap := h } := by simp [onHeap, e]

theorem entry_lt_used (a : Abs Int Int) (k : Int) : used a ≤ used (a.insert k) := by
  unfold used Abs.insert
  simp only [List.length_cons, List.length_tail]
  omega

theorem add_spec {s : Manager} {a : Abs Int Int} {p : List Item} {hd : List Int} (h : Rel s a p hd) (v d : Int)
    (hp : p.length < 2 ^ 29) (hr : 0 ≤ d ∧ d < 2 ^ 63) :
    ∃ e s' a', addNewItem v d s = .ok e s' ∧ s'.latch = s.latch ∧ Rel s' a' (⟨e, v, d⟩ :: p) (e :: hd) ∧
      ∀ i ∈ p, i.entry ≠ e := by
  have hlen : a.live.length = p.length := by rw [h.pend.length_eq]; simp
  obtain ⟨k, hk, hcap⟩ := h.cap
  have hpow : (2 : Int) ^ k ≤ 2 ^ 25 := by
    have : (2 : Nat) ^ k ≤ 2 ^ 25 := Nat.pow_le_pow_right (by omega) hk
    exact_mod_cast this
  have hpos : (0 : Int) < 2 ^ k := by
    have : (0 : Nat) < 2 ^ k := Nat.two_pow_pos k
    exact_mod_cast this
  have hns : ¬ (a.Full ∧ a.Stuck) := by
    rintro ⟨hf, hs⟩
    have := hf.2
    unfold Abs.Stuck at hs
    omega
  have hg : ¬ (a.Full ∧ 2 ^ 29 < a.cap ∧ a.cap < 2 ^ 30) := by rintro ⟨_, h1, _⟩; omega
  obtain ⟨h', e1, e2, e3⟩ := insertKV_spec h.inv d v hns (by omega) hg
  have hfresh : a.entry ∉ a.live := by
    intro hm
    unfold Abs.entry at hm
    cases hf : a.freed with
    | nil =>
      rw [hf] at hm
      have := h.inv.rng _ (.inl hm)
      unfold used at this
      rw [hf] at this
      simp at this
    | cons x xs =>
      rw [hf] at hm
      exact h.inv.disj hm (by rw [hf]; simp)
  refine ⟨a.entry, { s with heap := h' }, _, onHeap_ok e1, rfl, ⟨e2, e3 _ h.ord trivial, ?_, ?_, ?_, h.cmp, ?_⟩, ?_⟩
  · show (_ :: p).Perm ((a.entry :: a.live).map _)
    rw [List.map_cons]
    have e0 : itemOf { a.insert d with valOf := upd a.valOf a.entry v } a.entry = ⟨a.entry, v, d⟩ := by
      simp [itemOf, upd, Abs.insert]
    rw [e0]
    refine List.Perm.cons _ (h.pend.trans (List.Perm.of_eq ?_))
    refine List.map_congr_left fun x hx => ?_
    have hxe : x ≠ a.entry := fun hx' => hfresh (hx' ▸ hx)
    simp [itemOf, upd, Abs.insert, hxe]
  · intro e he
    have hu : used a ≤ used { a.insert d with valOf := upd a.valOf a.entry v } := entry_lt_used a d
    rcases List.mem_cons.1 he with rfl | he
    · exact e2.rng _ (.inl (List.mem_cons_self))
    · have := h.handed e he; omega
  · show ∃ k : Nat, k ≤ 25 ∧ a.newCap = _
    unfold Abs.newCap
    split
    · rename_i hf
      by_cases hk25 : k = 25
      · exact ⟨25, by omega, by rw [hcap, hk25]; decide⟩
      · refine ⟨k + 1, by omega, ?_⟩
        have : (2 : Int) ^ k ≤ 2 ^ 24 := by
          have : (2 : Nat) ^ k ≤ 2 ^ 24 := Nat.pow_le_pow_right (by omega) (by omega)
          exact_mod_cast this
        rw [hcap, Int.pow_succ]; omega
    · exact ⟨k, hk, hcap⟩
  · intro x hx
    rcases List.mem_cons.1 hx with rfl | hx
    · simpa [upd, Abs.insert] using hr
    · have hxe : x ≠ a.entry := fun hx' => hfresh (hx' ▸ hx)
      simpa [upd, Abs.insert, hxe] using h.rng x hx
  · intro i hi he
    rw [h.pend.mem_iff, List.mem_map] at hi
    obtain ⟨x, hx, rfl⟩ := hi
    exact hfresh (he ▸ hx)

theorem gone_rel {s : Manager} {a : Abs Int Int} {p : List Item} {hd : List Int} (h : Rel s a p hd) {e : Int}
    (he : e ∈ a.live) :
    ∃ h', Heap.removeAt e s.heap = .ok () h' ∧
      ∀ n, Rel ⟨h', n⟩ (Abs.gone a e) (p.erase (itemOf a e)) hd := by
  obtain ⟨h', e1, e2, e3⟩ := removeAt_live h.inv he
  refine ⟨h', e1, fun n => ⟨e2, e3 _ h.ord, ?_, ?_, h.cap, h.cmp, ?_⟩⟩
  · have hm : (a.live.map (itemOf a)).erase (itemOf a e) = (a.live.erase e).map (itemOf a) := by
      rw [List.map_erase (f := itemOf a) (fun x y hxy => by simpa [itemOf] using congrArg Item.entry hxy)]
    refine (h.pend.erase _).trans (List.Perm.of_eq ?_)
    rw [hm]
    show _ = (a.live.erase e).map (itemOf (Abs.gone a e))
    refine List.map_congr_left fun x hx => ?_
    rw [h.inv.nd.mem_erase_iff] at hx
    simp [itemOf, Abs.gone, upd, hx.1]
  · intro x hx
    have := h.handed x hx
    have hu : used (Abs.gone a e) = used a := by
      have := List.length_erase_of_mem he
      have : 0 < a.live.length := List.length_pos_of_mem he
      simp only [used, Abs.gone, List.length_cons]; omega
    omega
  · intro x hx
    have hx' : x ∈ a.live.erase e := hx
    rw [h.inv.nd.mem_erase_iff] at hx'
    have := h.rng x hx'.2
    simpa [Abs.gone, upd, hx'.1] using this

theorem i64_id {x : Int} (h : -(2 ^ 63) ≤ x ∧ x < 2 ^ 63) : i64 x = x := by unfold i64; omega

theorem mapIdx_shift (clock : Nat → Int) (x : Item) (l : List Item) (f : Nat → Item → Report) :
    (x :: l).mapIdx f = f 0 x :: l.mapIdx fun n i => f (n + 1) i := by
  rw [List.mapIdx_cons]

theorem process_spec (clock : Nat → Int) (hc : ∀ n, 0 ≤ clock n ∧ clock n < 2 ^ 63) :
    ∀ (fuel i : Nat) (s : Manager) (a : Abs Int Int) (p : List Item) (hd : List Int), Rel s a p hd →
    a.live.length < fuel →
    ∃ rs delay s' a' fired rest, processLoop clock fuel i s = .ok (rs, delay) s' ∧ Rel s' a' rest hd ∧
      s'.latch = s.latch - fired.length ∧ (fired ++ rest).Perm p ∧
      Fires (fun n => clock (i + n)) fired rest rs delay
  | 0, i, s, a, p, hd, h, hf => by omega
  | fuel + 1, i, s, a, p, hd, h, hf => by
    have hln := live_nil h.inv
    have hemp : Heap.isEmpty s.heap = .ok (decide (s.heap.size = 0)) s.heap := rfl
    rw [processLoop, JM.bind_ok (onHeap_ok hemp)]
    by_cases hl : a.live = []
    · rw [if_pos (by simp [hln.1 hl])]
      have hp : p = [] := by
        have := h.pend; rw [hl] at this; simpa using this
      exact ⟨[], 100, s, a, [], [], rfl, by rw [hp] at h; exact h, by simp, by rw [hp]; simp,
        ⟨rfl, by simp, by simp, by simp, by simp, fun _ => rfl, by simp⟩⟩
    · have h0 : s.heap.size ≠ 0 := fun hx => hl (hln.2 hx)
      rw [if_neg (by simpa using h0)]
      obtain ⟨q1, q2⟩ := (peek_spec h.inv).2 hl
      have hr := h.inv.rng _ (.inl q1)
      have hul := h.inv.used_le
      have hkl := h.inv.good.kl
      have hvl := h.inv.vl
      have hkey : Heap.getKeyAt (s.heap.tree.get 0) s.heap = .ok (a.keyOf (s.heap.tree.get 0)) s.heap := by
        rw [show Heap.getKeyAt (s.heap.tree.get 0) = (rd Heap.keys (s.heap.tree.get 0) : JM (Heap Int Int) Int) from rfl,
          rd_ok _ (by omega), h.inv.keys _ hr.1 (by omega)]
      have hval : Heap.getValueAt (s.heap.tree.get 0) s.heap = .ok (a.valOf (s.heap.tree.get 0)) s.heap := by
        rw [show Heap.getValueAt (s.heap.tree.get 0) = (rd Heap.values (s.heap.tree.get 0) : JM (Heap Int Int) Int) from rfl,
          rd_ok _ (by omega), h.inv.vals _ hr.1 (by omega)]
      have hmin : ∀ j ∈ p, a.keyOf (s.heap.tree.get 0) ≤ j.deadline := by
        intro j hj
        rw [h.pend.mem_iff, List.mem_map] at hj
        obtain ⟨x, hx, rfl⟩ := hj
        have := root_min h.inv h.ord x hx
        rw [h.cmp] at this
        exact asc64_le this
      have hmem : itemOf a (s.heap.tree.get 0) ∈ p := h.pend.mem_iff.2 (List.mem_map.2 ⟨_, q1, rfl⟩)
      have hrng := h.rng _ q1
      have hci := hc i
      rw [JM.bind_ok (onHeap_ok q2), JM.bind_ok (onHeap_ok hkey)]
      by_cases hd' : a.keyOf (s.heap.tree.get 0) < clock i
      · rw [if_pos hd']
        obtain ⟨h', g1, g2⟩ := gone_rel h q1
        have hrep : reportTimeout (s.heap.tree.get 0) (clock i) (a.keyOf (s.heap.tree.get 0)) { s with heap := s.heap } =
            .ok ⟨clock i, a.valOf (s.heap.tree.get 0), clock i - a.keyOf (s.heap.tree.get 0)⟩ ⟨h', s.latch - 1⟩ := by
          unfold reportTimeout
          rw [JM.bind_ok (onHeap_ok hval), JM.bind_ok (onHeap_ok g1), JM.bind_ok (JM.modify_apply _ _), i64_id (by omega)]
          rfl
        have hlen := List.length_erase_of_mem q1
        have hpos := List.length_pos_of_mem q1
        obtain ⟨rs, delay, s', a', fired, rest, f1, f2, f3, f4, f5⟩ :=
          process_spec clock hc fuel (i + 1) _ _ _ _ (g2 (s.latch - 1)) (by
            show (a.live.erase _).length < fuel; omega)
        rw [JM.bind_ok hrep, JM.bind_ok f1]
        have hperm : (itemOf a (s.heap.tree.get 0) :: (fired ++ rest)).Perm p :=
          (f4.cons _).trans (List.perm_cons_erase hmem).symm
        refine ⟨_, delay, s', a', itemOf a (s.heap.tree.get 0) :: fired, rest, rfl, f2, ?_, hperm, ?_⟩
        · rw [f3, List.length_cons]; show s.latch - 1 - fired.length = _; omega
        · have hcl : ∀ n, clock (i + 1 + n) = clock (i + (n + 1)) := fun n => by congr 1; omega
          refine ⟨?_, ?_, ?_, ?_, ?_, f5.idle, ?_⟩
          · rw [List.mapIdx_cons, f5.reports]
            simp only [hcl]
            rfl
          · intro n x hx
            cases n with
            | zero => simp at hx; subst hx; exact hd'
            | succ n =>
              have := f5.due n x (by simpa using hx)
              simpa only [hcl] using this
          · refine List.pairwise_cons.2 ⟨fun j hj => hmin j (hperm.mem_iff.1 ?_), f5.sorted⟩
            exact List.mem_cons_of_mem _ (List.mem_append_left _ hj)
          · intro x hx j hj
            rcases List.mem_cons.1 hx with rfl | hx
            · exact hmin j (hperm.mem_iff.1 (List.mem_cons_of_mem _ (List.mem_append_right _ hj)))
            · exact f5.first x hx j hj
          · intro x hx
            have := f5.notDue x hx
            simpa only [hcl, List.length_cons] using this
          · intro hne
            obtain ⟨x, x1, x2, x3⟩ := f5.next hne
            exact ⟨x, x1, x2, by simpa only [hcl, List.length_cons] using x3⟩
      · rw [if_neg hd', i64_id (by omega)]
        refine ⟨[], _, s, a, [], p, rfl, h, by simp, by simp, ⟨rfl, by simp, by simp, by simp, fun j hj => ?_, fun hp => ?_, fun _ => ?_⟩⟩
        · have := hmin j hj
          show clock (i + 0) ≤ _
          rw [Nat.add_zero]; omega
        · rw [hp] at hmem; simp at hmem
        · exact ⟨_, hmem, hmin, rfl⟩

/-- Every event is legal. -/
theorem step_legal {s : Manager} {a : Abs Int Int} {p : List Item} {hd : List Int} (h : Rel s a p hd) (e : Event)
    (hr : InRange e) (ha : ∀ v d, e = .add v d → p.length < 2 ^ 29) (hk : ∀ x, e = .acknowledge x → x ∈ hd) :
    ∃ a' p' hd', Rel (Timeout.step s e).2 a' p' hd' ∧ p'.length ≤ p.length + adds [e] ∧
      (∀ t, Proper hd ((e, (Timeout.step s e).1) :: t) → Proper hd' t) ∧
      ∀ t, Legal ⟨p', hd', (Timeout.step s e).2.latch⟩ t → Legal ⟨p, hd, s.latch⟩ ((e, (Timeout.step s e).1) :: t) := by
  cases e with
  | add v d =>
    obtain ⟨e, s', a', e1, e2, e3, e4⟩ := add_spec h v d (ha v d rfl) hr
    simp only [Timeout.step, e1]
    exact ⟨a', _, _, e3, by simp [adds], fun t ht => ht, fun t ht => .add e4 (by rw [e2] at ht; exact ht)⟩
  | acknowledge x =>
    have hx := h.handed x (hk x rfl)
    by_cases hl : x ∈ a.live
    · obtain ⟨h', g1, g2⟩ := gone_rel h hl
      have e1 : acknowledge x s = .ok () ⟨h', s.latch⟩ := onHeap_ok g1
      simp only [Timeout.step, e1]
      have hmem : itemOf a x ∈ p := h.pend.mem_iff.2 (List.mem_map.2 ⟨_, hl, rfl⟩)
      exact ⟨_, _, _, g2 s.latch, by rw [List.length_erase_of_mem hmem]; omega, fun t ht => ht.2,
        fun t ht => .acknowledge (i := itemOf a x) hmem ht⟩
    · have hul := h.inv.used_le
      have hcap := h.inv.cap
      have e1 : acknowledge x s = .err .invalidEntry s :=
        onHeap_err (removeAt_dead h.inv ⟨hx.1, by omega⟩ hl (.inr hx.2))
      simp only [Timeout.step, e1]
      refine ⟨a, p, hd, h, by omega, fun t ht => ht.2, fun t ht => .late (fun i hi hie => ?_) ht⟩
      have hi' : i ∈ p := hi
      rw [h.pend.mem_iff, List.mem_map] at hi'
      obtain ⟨y, hy, rfl⟩ := hi'
      exact hl (hie ▸ hy)
  | poll clock =>
    by_cases hlt : s.latch ≠ 0
    · obtain ⟨rs, delay, s', a', fired, rest, f1, f2, f3, f4, f5⟩ :=
        process_spec clock hr (s.heap.size.toNat + 1) 0 s a p hd h (by have := h.inv.sz; omega)
      have e1 : process clock s = .ok (rs, delay) s' := by
        unfold process; rw [JM.bind_ok (JM.get_apply _), f1]
      simp only [Timeout.step, if_pos hlt, e1]
      simp only [Nat.zero_add] at f5
      have := f4.length_eq
      rw [List.length_append] at this
      exact ⟨a', rest, hd, f2, by omega, fun t ht => ht,
        fun t ht => .poll hlt f4 f5 (by rw [f3] at ht; exact ht)⟩
    · simp only [Timeout.step, if_neg hlt]
      exact ⟨a, p, hd, h, by omega, fun t ht => ht, fun t ht => .stopped (by simpa using hlt) ht⟩

theorem run_legal : ∀ (es : List Event) (s : Manager) (a : Abs Int Int) (p : List Item) (hd : List Int), Rel s a p hd →
    (∀ e ∈ es, InRange e) → p.length + adds es ≤ 2 ^ 29 → Proper hd (Timeout.run s es) →
    Legal ⟨p, hd, s.latch⟩ (Timeout.run s es)
  | [], _, _, _, _, _, _, _, _ => .nil
  | e :: es, s, a, p, hd, h, hr, hn, hp => by
    have hadd : adds (e :: es) = adds [e] + adds es := by
      unfold adds; rw [show e :: es = [e] ++ es from rfl, List.countP_append]
    obtain ⟨a', p', hd', r1, r2, r3, r4⟩ := step_legal h e (hr e List.mem_cons_self)
      (fun v d he => by
        have : adds [e] = 1 := by rw [he]; rfl
        omega)
      (fun x he => by
        have : Proper hd ((e, (Timeout.step s e).1) :: Timeout.run (Timeout.step s e).2 es) := hp
        rw [he] at this
        exact this.1)
    have hp' : Proper hd ((e, (Timeout.step s e).1) :: Timeout.run (Timeout.step s e).2 es) := hp
    exact r4 _ (run_legal es _ _ _ _ r1 (fun x hx => hr x (List.mem_cons_of_mem _ hx)) (by omega) (r3 _ hp'))

end Verif.TimeoutProof
