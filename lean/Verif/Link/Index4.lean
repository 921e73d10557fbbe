import Verif.Link.Index3
import Verif.Proofs.CallbacksIndex2
/-! `KeyValueIndexedMap.ftl`: the generated iterations, `clear`, constructors and `copyFrom` agree with
the model. -/
set_option linter.unusedSectionVars false
namespace Verif.Link.Map
open Verif Verif.Gen Index
variable {K V : Type} [Inhabited K] [Inhabited V] {β : Type}

theorem forEach_loop2_eq (c : K → JM (Index K V) β) : ∀ (n : Nat) (acc : List β) (hits e : Int),
    KeyValueIndexedMap.forEach_loop2 c n acc hits e =
      KeyValueIndexedMap.forEachEntry_loop2 (fun e => rd Index.keys e >>= c) n acc hits e
  | 0, _, _, _ => rfl
  | n + 1, acc, hits, e => by
    unfold KeyValueIndexedMap.forEach_loop2 KeyValueIndexedMap.forEachEntry_loop2
    simp only [assoc, forEach_loop2_eq c n]

theorem forEach_loop1_eq (fuel : Nat) (c : K → JM (Index K V) β) (N : Int) : ∀ (n : Nat) (acc : List β) (hits e : Int),
    KeyValueIndexedMap.forEach_loop1 fuel c N n acc hits e =
      KeyValueIndexedMap.forEachEntry_loop1 fuel (fun e => rd Index.keys e >>= c) N n acc hits e
  | 0, _, _, _ => rfl
  | n + 1, acc, hits, e => by
    unfold KeyValueIndexedMap.forEach_loop1 KeyValueIndexedMap.forEachEntry_loop1
    simp only [forEach_loop2_eq, forEach_loop1_eq fuel c N n]

theorem forEach_gen (fuel : Nat) (c : K → JM (Index K V) β) :
    KeyValueIndexedMap.forEach fuel c = KeyValueIndexedMap.forEachEntry fuel (fun e => rd Index.keys e >>= c) := by
  unfold KeyValueIndexedMap.forEach KeyValueIndexedMap.forEachEntry
  simp only [forEach_loop1_eq]

theorem forEachValue_loop2_eq (c : V → JM (Index K V) β) : ∀ (n : Nat) (acc : List β) (hits e : Int),
    KeyValueIndexedMap.forEachValue_loop2 c n acc hits e =
      KeyValueIndexedMap.forEachEntry_loop2 (fun e => rd Index.values e >>= c) n acc hits e
  | 0, _, _, _ => rfl
  | n + 1, acc, hits, e => by
    unfold KeyValueIndexedMap.forEachValue_loop2 KeyValueIndexedMap.forEachEntry_loop2
    simp only [assoc, forEachValue_loop2_eq c n]

theorem forEachValue_loop1_eq (fuel : Nat) (c : V → JM (Index K V) β) (N : Int) : ∀ (n : Nat) (acc : List β) (hits e : Int),
    KeyValueIndexedMap.forEachValue_loop1 fuel c N n acc hits e =
      KeyValueIndexedMap.forEachEntry_loop1 fuel (fun e => rd Index.values e >>= c) N n acc hits e
  | 0, _, _, _ => rfl
  | n + 1, acc, hits, e => by
    unfold KeyValueIndexedMap.forEachValue_loop1 KeyValueIndexedMap.forEachEntry_loop1
    simp only [forEachValue_loop2_eq, forEachValue_loop1_eq fuel c N n]

theorem forEachValue_gen (fuel : Nat) (c : V → JM (Index K V) β) :
    KeyValueIndexedMap.forEachValue fuel c = KeyValueIndexedMap.forEachEntry fuel (fun e => rd Index.values e >>= c) := by
  unfold KeyValueIndexedMap.forEachValue KeyValueIndexedMap.forEachEntry
  simp only [forEachValue_loop1_eq]

/-- the lengths of the link arrays -/
def Lens (s : Index K V) : Prop := s.nexts.len ≤ 2 ^ 29 ∧ s.heads.len ≤ 2 ^ 29

theorem walk_keeps {f : Int → JM (Index K V) β} {J : Index K V → Prop} (hf : ∀ e, Keeps J (f e)) :
    ∀ (m : Nat) (e : Int), Keeps J (walk f m e)
  | 0, _ => .throw _
  | m + 1, e => by
    unfold walk
    exact .ite (.bind (.rd _) fun _ => .bind (hf _) fun _ => .bind (walk_keeps hf m _) fun _ => .pure _) (.pure _)

theorem walk_sim {f : Int → JM (Index K V) β} :
    ∀ (m g : Nat) (acc : List β) (hits e : Int) (s : Index K V), m ≤ g → 0 ≤ hits → hits + m < 2 ^ 31 →
    Sim (fun bs r => r = (acc ++ bs, hits + bs.length) ∧ bs.length ≤ m) (walk f m e)
      (KeyValueIndexedMap.forEachEntry_loop2 f g acc hits e) s
  | 0, _, _, _, _, _, _, _, _ => .diverge
  | m + 1, 0, _, _, _, _, h, _, _ => absurd h (by omega)
  | m + 1, g + 1, acc, hits, e, s, h, h0, h1 => by
    unfold walk KeyValueIndexedMap.forEachEntry_loop2
    refine .ite (by simp) (fun he => ?_) fun _ => .pure (by simp)
    refine .step fun nx t _ => ?_
    refine .step fun b u _ => ?_
    dsimp only
    rw [i32_of_range (x := hits + 1) (by omega)]
    refine .tailL (walk_sim m g (acc ++ [b]) (hits + 1) nx u (by omega) (by omega) (by omega)) fun bs r v _ hr => ?_
    refine .pure ⟨?_, ?_⟩
    · rw [hr.1]; simp; omega
    · have := hr.2; simp; omega

theorem scan_sim {J : Index K V → Prop} (hJ : ∀ s, J s → Lens s) {f : Int → JM (Index K V) β}
    (hf : ∀ e, Keeps J (f e)) (fuel : Nat) (hfu : 2 ^ 31 ≤ fuel)
    (N : Int) (hN : N ≤ 2 ^ 29) :
    ∀ (m g : Nat) (acc : List β) (hits head : Int) (s : Index K V), m ≤ g → 0 ≤ hits → 0 ≤ head → J s →
    Sim (fun bs r => r.1 = acc ++ bs) (scan f N m head hits)
      (KeyValueIndexedMap.forEachEntry_loop1 fuel f N g acc hits head) s
  | 0, _, _, _, _, _, _, _, _, _ => .diverge
  | m + 1, 0, _, _, _, _, h, _, _, _ => absurd h (by omega)
  | m + 1, g + 1, acc, hits, head, s, h, h0, h1, hs => by
    unfold scan KeyValueIndexedMap.forEachEntry_loop1
    refine .get ?_
    refine .ite (by simp) (fun hc => ?_) fun _ => .pure (by simp)
    refine .stepS (rd_state _ _ _) fun e _ => ?_
    have hl := hJ s hs
    unfold Lens at hl
    refine .bind (walk_sim (s.nexts.len + 1) fuel acc hits e s (by omega) h0 (by omega)) fun bs r t ht hr => ?_
    have hk : J t := by have := walk_keeps hf (s.nexts.len + 1) e s hs; rw [ht] at this; exact this
    obtain ⟨rfl, hr2⟩ := hr
    dsimp only
    rw [i32_of_range (x := head + 1) (by omega)]
    refine .tailL (scan_sim hJ hf fuel hfu N hN m g (acc ++ bs) (hits + bs.length) (head + 1) t (by omega) (by omega)
      (by omega) hk) fun rest r v _ hr => .pure ?_
    rw [hr]; simp

theorem forEachWith_simJ {J : Index K V → Prop} (hJ : ∀ s, J s → Lens s) {f : Int → JM (Index K V) β}
    (hf : ∀ e, Keeps J (f e)) (fuel : Nat) (hfu : 2 ^ 31 ≤ fuel)
    {s : Index K V} (hs : J s) (hz : s.size ≤ 2 ^ 29) :
    Sim Eq (forEachWith f) (KeyValueIndexedMap.forEachEntry fuel f) s := by
  unfold forEachWith KeyValueIndexedMap.forEachEntry
  refine .get ?_
  have hl := hJ s hs
  unfold Lens at hl
  refine .ite (by simp) (fun _ => .pure rfl) fun _ => ?_
  refine .tailR (scan_sim hJ hf fuel hfu s.size hz (s.heads.len + 1) fuel [] 0 0 s (by omega) (by omega) (by omega) hs)
    fun a b t _ h => ?_
  obtain ⟨b1, b2⟩ := b
  exact .pure (by simpa using h.symm)

theorem forEachWith_sim {f : Int → JM (Index K V) β} (hf : ∀ e, Keeps Lens (f e)) (fuel : Nat) (hfu : 2 ^ 31 ≤ fuel)
    {s : Index K V} (hs : Lens s) (hz : s.size ≤ 2 ^ 29) :
    Sim Eq (forEachWith f) (KeyValueIndexedMap.forEachEntry fuel f) s :=
  forEachWith_simJ (fun _ h => h) hf fuel hfu hs hz

theorem arraysFill_eq {σ α : Type} (a : Arr α) (n : Int) (v : α) (h : 0 ≤ n) :
    (arraysFill a 0 n v : JM σ (Arr α)) = fill a v 0 n := by
  apply JM_ext; intro s
  unfold arraysFill fill
  simp only [Int.sub_zero, Int.zero_add]
  rw [if_neg (by omega)]
  by_cases h0 : n ≤ 0
  · obtain rfl : n = 0 := by omega
    rw [if_neg (by omega), if_pos (by omega)]
    congr 1
    unfold Arr.fillRange
    obtain ⟨l, g⟩ := a
    congr 1
    funext i
    rw [if_neg (by omega)]
  · rw [if_neg h0]
    by_cases h1 : n ≤ a.len
    · rw [if_neg (by omega), if_pos (by omega)]
    · rw [if_pos (by omega), if_neg (by omega)]

theorem clear_sim {s : Index K V} (hm : 0 ≤ s.maxHead) (hx : s.maxHead < 2 ^ 31 - 1) (hn : 0 ≤ s.nextUnusedEntry) :
    Sim Eq clear (KeyValueIndexedMap.clear : JM (Index K V) Unit) s := by
  unfold clear KeyValueIndexedMap.clear KeyValueIndexedMap.clearKeys KeyValueIndexedMap.clearValues JM.when
  refine .get ?_
  simp only [bind_unit, decide_eq_true_eq, assoc]
  rw [i32_of_range (x := s.maxHead + 1) (by omega), arraysFill_eq _ _ _ (by omega)]
  have fin : ∀ u : Index K V, Sim Eq
      (modify fun t : Index K V => { t with modificationCount := 0, nextUnusedEntry := 0, freeList := -1, maxHead := 0 })
      (do
        modify fun self : Index K V => { self with modificationCount := 0 }
        modify fun self => { self with nextUnusedEntry := 0 }
        modify fun self => { self with freeList := -1 }
        modify fun self => { self with maxHead := 0 }) u := fun u => .of_eq rfl
  by_cases hz : s.size > 0
  · rw [if_pos hz, if_pos hz]
    simp only [assoc]
    refine .stepL (fill_local _ _ _ _ _) fun h _ => .modify rfl (.right rfl ?_)
    dsimp only
    rw [arraysFill_eq _ _ _ (by omega)]
    refine .stepL (fill_local _ _ _ _ _) fun nx _ => .modify rfl (.right rfl ?_)
    dsimp only
    refine .stepL (fill_local _ _ _ _ _) fun k _ => .modify rfl (.right rfl ?_)
    dsimp only
    refine .stepL (fill_local _ _ _ _ _) fun v _ => .modify rfl (.modify rfl (fin _))
  · rw [if_neg hz, if_neg hz]
    exact .left rfl (.right rfl (fin _))

/-! Running straight-line code with the states given explicitly (the nested record updates that
rewriting leaves behind are exponentially large). -/
theorem run_mod {σ β : Type} (f : σ → σ) (g : PUnit → JM σ β) (s u : σ) (r : Res σ β)
    (h1 : f s = u) (h2 : g ⟨⟩ u = r) : ((modify f : JM σ PUnit) >>= g) s = r := by
  rw [JM.bind_ok (JM.modify_apply _ _), h1, h2]
theorem run_get {σ β : Type} (g : σ → JM σ β) (s : σ) (r : Res σ β) (h : g s s = r) :
    ((MonadState.get : JM σ σ) >>= g) s = r := h
theorem run_new {σ α β : Type} {n : Int} (hn : 0 ≤ n) (d : α) (g : Arr α → JM σ β) (s : σ) (r : Res σ β)
    (h : g (Arr.create n d) s = r) : ((newArr n d : JM σ (Arr α)) >>= g) s = r := by
  rw [JM.bind_ok (newArr_ok _ hn), h]

theorem initHash_eq (hash : K → BitVec 32) (eq : K → K → Bool) (c : Int) (lf : Nat × Nat) (s : Index K V)
    (h1 : ¬ (c ≤ 0 ∨ c > MAX_CAPACITY)) (h2 : ¬ (lf.1 = 0 ∨ lf.1 > lf.2)) :
    KeyValueIndexedMap.init_BaseHash_2 hash eq c lf s =
      .ok () { s with
        capacity := nextPowerOf2 c, capThreshold := threshold (nextPowerOf2 c) lf.1 lf.2
        lfNum := lf.1, lfDen := lf.2
        heads := Arr.create (nextPowerOf2 c) (-1), nexts := Arr.create (nextPowerOf2 c) (-1)
        size := 0, freeList := -1, nextUnusedEntry := 0, maxHead := 0 } := by
  have hn : 0 ≤ nextPowerOf2 c := by
    have : MAX_CAPACITY = 2 ^ 29 := by decide
    have := nextPowerOf2_range (v := c) (by omega) (by omega)
    omega
  unfold KeyValueIndexedMap.init_BaseHash_2
  simp only [nextPowerOf2_eq, maxcap]
  rw [if_neg (by simpa using h1), if_neg (by simpa using h2)]
  generalize nextPowerOf2 c = n at *
  refine run_mod _ _ _ { s with size := 0 } _ rfl (run_mod _ _ _ { s with size := 0, freeList := -1 } _ rfl
    (run_mod _ _ _ { s with size := 0, freeList := -1, maxHead := 0 } _ rfl ?_))
  rw [JM.bind_ok (JM.pure_apply _ _), JM.bind_ok (JM.pure_apply _ _), JM.bind_ok (JM.pure_apply _ _)]
  refine run_mod _ _ _ { s with size := 0, freeList := -1, maxHead := 0, capacity := n } _ rfl (run_get _ _ _ ?_)
  refine run_mod _ _ _ { s with size := 0, freeList := -1, maxHead := 0, capacity := n, capThreshold := threshold n lf.1 lf.2 } _ rfl ?_
  refine run_mod _ _ _ { s with size := 0, freeList := -1, maxHead := 0, capacity := n, capThreshold := threshold n lf.1 lf.2, lfNum := lf.1, lfDen := lf.2 } _ rfl ?_
  refine run_mod _ _ _ { s with size := 0, freeList := -1, maxHead := 0, capacity := n, capThreshold := threshold n lf.1 lf.2, lfNum := lf.1, lfDen := lf.2, nextUnusedEntry := 0 } _ rfl (run_get _ _ _ (run_new hn _ _ _ _ ?_))
  refine run_mod _ _ _ { s with size := 0, freeList := -1, maxHead := 0, capacity := n, capThreshold := threshold n lf.1 lf.2, lfNum := lf.1, lfDen := lf.2, nextUnusedEntry := 0, heads := Arr.create n (-1) } _ rfl (run_get _ _ _ (run_new hn _ _ _ _ ?_))
  exact run_mod _ _ _ _ _ rfl rfl

theorem initHash_err (hash : K → BitVec 32) (eq : K → K → Bool) (c : Int) (lf : Nat × Nat) (s : Index K V)
    (h : (c ≤ 0 ∨ c > MAX_CAPACITY) ∨ (lf.1 = 0 ∨ lf.1 > lf.2)) :
    ∃ t, KeyValueIndexedMap.init_BaseHash_2 hash eq c lf s = .err .illegalArgument t := by
  unfold KeyValueIndexedMap.init_BaseHash_2
  simp only [maxcap]
  iterate 3 (rw [JM.bind_ok (JM.modify_apply _ _)]; try dsimp only)
  by_cases h1 : c ≤ 0 ∨ c > MAX_CAPACITY
  · rw [if_pos (by simpa using h1)]
    exact ⟨_, JM.bind_err (JM.throw_apply _ _)⟩
  · rw [if_neg (by simpa using h1), JM.bind_ok (JM.pure_apply _ _),
      if_pos (by simpa using h.resolve_left h1)]
    exact ⟨_, JM.bind_err (JM.throw_apply _ _)⟩

/-- The constructor, on an object whose fields are still zero. -/
theorem init2_eq (hash : K → BitVec 32) (eq : K → K → Bool) (c : Int) (lf : Nat × Nat) (s : Index K V)
    (hz : s.modificationCount = 0) :
    (match KeyValueIndexedMap.init2 hash eq c lf s with | .ok _ t => .ok t | .err e _ => .error e) =
      Index.new hash eq c lf.1 lf.2 := by
  unfold Index.new
  by_cases h1 : c ≤ 0 ∨ c > MAX_CAPACITY
  · rw [if_pos h1]
    obtain ⟨t, ht⟩ := initHash_err hash eq c lf s (.inl h1)
    unfold KeyValueIndexedMap.init2 KeyValueIndexedMap.init_BaseKeyIndex_2
    rw [JM.bind_err (JM.bind_err ht)]
  · rw [if_neg h1]
    by_cases h2 : lf.1 = 0 ∨ lf.1 > lf.2
    · rw [if_pos h2]
      obtain ⟨t, ht⟩ := initHash_err hash eq c lf s (.inr h2)
      unfold KeyValueIndexedMap.init2 KeyValueIndexedMap.init_BaseKeyIndex_2
      rw [JM.bind_err (JM.bind_err ht)]
    · rw [if_neg h2]
      have hn : 0 ≤ nextPowerOf2 c := by
        have : MAX_CAPACITY = 2 ^ 29 := by decide
        have := nextPowerOf2_range (v := c) (by omega) (by omega)
        omega
      unfold KeyValueIndexedMap.init2 KeyValueIndexedMap.init_BaseKeyIndex_2
      simp only [bind_unit, assoc]
      rw [JM.bind_ok (initHash_eq hash eq c lf s h1 h2)]
      generalize nextPowerOf2 c = n at *
      have : ∀ r u, r = Res.ok () u → (match r with | .ok (_ : Unit) t => Except.ok (ε := Err) t | .err e (_ : Index K V) => .error e) = .ok u := by
        intro r u h; rw [h]
      refine this _ _ ?_
      refine run_mod _ _ _ { s with
        capacity := n, capThreshold := threshold n lf.1 lf.2, lfNum := lf.1, lfDen := lf.2
        heads := Arr.create n (-1), nexts := Arr.create n (-1)
        size := 0, freeList := -1, nextUnusedEntry := 0, maxHead := 0, hashFunc := hash } _ rfl ?_
      refine run_mod _ _ _ { s with
        capacity := n, capThreshold := threshold n lf.1 lf.2, lfNum := lf.1, lfDen := lf.2
        heads := Arr.create n (-1), nexts := Arr.create n (-1)
        size := 0, freeList := -1, nextUnusedEntry := 0, maxHead := 0, hashFunc := hash, equalFunc := eq } _ rfl ?_
      refine run_get _ _ _ (run_new hn _ _ _ _ ?_)
      refine run_mod _ _ _ { s with
        capacity := n, capThreshold := threshold n lf.1 lf.2, lfNum := lf.1, lfDen := lf.2
        heads := Arr.create n (-1), nexts := Arr.create n (-1)
        size := 0, freeList := -1, nextUnusedEntry := 0, maxHead := 0, hashFunc := hash, equalFunc := eq
        keys := Arr.create n default } _ rfl ?_
      refine run_get _ _ _ (run_new hn _ _ _ _ ?_)
      rw [JM.modify_apply]
      simp only [hz]

theorem init1_eq (hash : K → BitVec 32) (eq : K → K → Bool) (c : Int) (s : Index K V)
    (hz : s.modificationCount = 0) :
    (match KeyValueIndexedMap.init1 hash eq c s with | .ok _ t => .ok t | .err e _ => .error e) =
      Index.new hash eq c 3 4 := by
  unfold KeyValueIndexedMap.init1
  rw [bind_unit]
  exact init2_eq hash eq c (3, 4) s hz

end Verif.Link.Map
