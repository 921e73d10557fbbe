import Verif.Link.IndexProps
import Verif.Link.DequeProps
import Verif.Props.CallbacksIndex2
/-! # C93 for the generated indexed map: consumers that change the collection they are walking -/
set_option linter.unusedSectionVars false
namespace Verif.Link.Map
open Verif.Index Verif.IndexSpec Verif.Gen
variable {K V : Type} [Inhabited K] [Inhabited V]

/-- Every call respects `Guard` and `KeepsNext` and has int arguments. -/
def AllKeepNext (fuel : Nat) (next : Option Int) : Abs K V → Index K V → List (Op K V) → Prop
  | _, _, [] => True
  | a, s, o :: os => IntArg o ∧ Guard o a ∧ KeepsNext next o a ∧
      AllKeepNext fuel next (after o (res fuel o s) a) (step fuel o s).state os

/-- The walk over the entries `rest` when `seen` was handed out before: at each entry the consumer is handed what the
entry then has, and its calls are made; the entries that these took out are left out of the rest of the walk.  At
the end `out` was handed out and the collection is `t`, with contents `c`. -/
inductive Rounds (fuel : Nat) (k : Kind) (g : Out K V → List (Op K V)) :
    List (Out K V) → Index K V → Abs K V → List Int → List (Out K V) → Index K V → Abs K V → Prop
  | done {seen : List (Out K V)} {s : Index K V} {a : Abs K V} : Rounds fuel k g seen s a [] seen s a
  | step {seen : List (Out K V)} {s : Index K V} {a : Abs K V} {e : Int} {rest : List Int}
      {out : List (Out K V)} {t : Index K V} {c : Abs K V} {b : Out K V} :
      (match k with
        | .entries => b = .int e
        | .keys => res fuel (.getKeyAt e) s = .ok b
        | .values => res fuel (.getValueAt e) s = .ok b) →
      AllKeepNext fuel rest.head? a s (g b) →
      Rounds fuel k g (seen ++ [b]) (final fuel s (g b)) (ideal fuel a s (g b))
        (rest.filter fun e => e ∈ (ideal fuel a s (g b)).live) out t c →
      Rounds fuel k g seen s a (e :: rest) out t c

/-- The three generated methods, with a consumer that makes the calls `g b` when handed `b`. -/
def walk (fuel : Nat) (g : Out K V → List (Op K V)) : Kind → JM (Index K V) (List (Out K V))
  | .entries => KeyValueIndexedMap.forEachEntry fuel fun e => consumerOf (step fuel) g (.int e)
  | .keys => KeyValueIndexedMap.forEach fuel fun x => consumerOf (step fuel) g (.key x)
  | .values => KeyValueIndexedMap.forEachValue fuel fun x => consumerOf (step fuel) g (.val x)

/-- What the generated inner loop does at an entry. -/
def handing (fuel : Nat) (k : Kind) (g : Out K V → List (Op K V)) (e : Int) : JM (Index K V) (Out K V) := do
  consumerOf (step fuel) g (← handed k e)

theorem walk_eq (fuel : Nat) (g : Out K V → List (Op K V)) (k : Kind) :
    walk fuel g k = KeyValueIndexedMap.forEachEntry fuel (handing fuel k g) := by
  cases k
  · rfl
  · simp only [walk, forEach_gen]
    congr 1; funext e
    unfold handing handed
    simp only [assoc]; rfl
  · simp only [walk, forEachValue_gen]
    congr 1; funext e
    unfold handing handed
    simp only [assoc]; rfl

variable {fuel : Nat} {s t : Index K V} {a b c : Abs K V}

theorem AllKeepNext.guarded {nx : Option Int} : ∀ (ops : List (Op K V)) {s : Index K V} {a : Abs K V},
    AllKeepNext fuel nx a s ops → Guarded fuel a s ops
  | [], _, _, _ => trivial
  | _ :: ops, _, _, h => ⟨h.1, h.2.1, AllKeepNext.guarded ops h.2.2.2⟩

theorem AllKeepNext.model (hf : 2 ^ 31 ≤ fuel) {nx : Option Int} : ∀ (ops : List (Op K V)) {s : Index K V}
    {a : Abs K V}, Made fuel s a → AllKeepNext fuel nx a s ops → IndexSpec.AllKeepNext nx a s ops
  | [], _, _, _, _ => trivial
  | o :: ops, s, a, hm, ⟨h1, h2, h3, h4⟩ => by
    have he := hm.eq hf o h1 h2
    have := AllKeepNext.model hf ops (hm.call o h1 h2) h4
    rw [he] at this
    exact ⟨⟨h2, h3⟩, this⟩

theorem Rounds.model (hf : 2 ^ 31 ≤ fuel) {k : Kind} {g : Out K V → List (Op K V)} {seen : List (Out K V)}
    {rest : List Int} {out : List (Out K V)} (hv : Rounds fuel k g seen s a rest out t c) :
    Made fuel s a → IndexSpec.Walks k (perValue g) seen s a rest out t c ∧ Made fuel t c := by
  induction hv with
  | done => exact fun h => ⟨.done, h⟩
  | @step seen s a e rest out t c b hb ht _ ih =>
    intro h
    have hr := h.run hf _ (AllKeepNext.guarded _ ht)
    obtain ⟨i1, i2⟩ := ih hr.2.2.2.2.2
    have ht' := AllKeepNext.model hf _ h ht
    rw [hr.2.1, hr.2.2.1] at i1
    refine ⟨.step (b := b) ?_ (by rw [perValue_snoc]; exact ht') (by rw [perValue_snoc]; exact i1), i2⟩
    cases k
    · exact hb
    · have hb' : res fuel (.getKeyAt e) s = .ok b := hb
      unfold res at hb'; rw [h.eq hf (.getKeyAt e) trivial trivial] at hb'; exact hb'
    · have hb' : res fuel (.getValueAt e) s = .ok b := hb
      unfold res at hb'; rw [h.eq hf (.getValueAt e) trivial trivial] at hb'; exact hb'

theorem walk_loop2 (hf : 2 ^ 31 ≤ fuel) {k : Kind} {g : Out K V → List (Op K V)} {out : List (Out K V)} :
    ∀ (n : Nat) (l rest : List Int) (seen : List (Out K V)) (s : Index K V) (a : Abs K V) (F : List Int)
      (e u : Int), Inv False s a F → Made fuel s a → Rounds fuel k g seen s a (l ++ rest) out t c →
      Path s.nexts e l u → (∀ x ∈ l ++ rest, x ∈ a.live) → l.length < n → seen.length + l.length < 2 ^ 31 →
      ∃ s' a' F' seen', KeyValueIndexedMap.forEachEntry_loop2 (handing fuel k g) n seen seen.length e s =
          .ok (seen', (seen'.length : Int)) s' ∧ Inv False s' a' F' ∧ Made fuel s' a' ∧
        Rounds fuel k g seen' s' a' (rest.filter fun e => e ∈ a'.live) out t c ∧
        seen'.length ≤ seen.length + l.length ∧ Shrunk s s' a a'
  | 0, _, _, _, _, _, _, _, _, _, _, _, _, _, h, _ => by omega
  | n + 1, [], rest, seen, s, a, F, e, u, hI, hm, hv, hp, hl, _, _ => by
    have h1 := hp.1; have h2 := hp.2
    refine ⟨s, a, F, seen, ?_, hI, hm, ?_, by simp, shrunk_refl hI⟩
    · rw [KeyValueIndexedMap.forEachEntry_loop2, if_neg (by simp; omega)]; rfl
    · rw [List.nil_append] at hv hl
      rw [List.filter_eq_self.2 (fun x hx => by simpa using hl x hx)]
      exact hv
  | n + 1, x :: l, rest, seen, s, a, F, e, u, hI, hm, hv, hp, hlv, hl, hz => by
    obtain ⟨rfl, h0, h1, h2⟩ := hp
    rw [List.cons_append] at hv
    have hlive := hlv e (by simp)
    cases hv with
    | @step _ _ _ _ _ _ _ _ b hb ht hrest =>
      obtain ⟨r1, r2, r3, -, -, r6⟩ := hm.run hf _ (AllKeepNext.guarded _ ht)
      obtain ⟨F1, c1, c2, c3⟩ := calls_shrunk _ s a F hI (AllKeepNext.model hf _ hm ht)
      rw [← r2, ← r3] at c1 c2
      rw [← r3] at c3
      obtain ⟨u', hp'⟩ : ∃ u', Path (final fuel s (g b)).nexts (s.nexts.get e)
          (l.filter fun e => e ∈ (ideal fuel a s (g b)).live) u' := by
        cases l with
        | nil => exact ⟨u, h2⟩
        | cons y l =>
          have hy := h2.1
          rw [hy] at h2 ⊢
          have hyl := hlv y (by simp)
          exact c2.path hI c1 h2 hyl (c3 y hyl rfl)
      rw [List.filter_append] at hrest
      have hfl := List.length_filter_le (fun e => decide (e ∈ (ideal fuel a s (g b)).live)) l
      simp only [List.length_cons] at hl hz
      obtain ⟨s', a', F', seen', w1, w2, w2', w3, w4, w5⟩ :=
        walk_loop2 hf n _ _ (seen ++ [b]) _ _ F1 _ u' c1 r6 hrest hp'
          (fun x hx => by
            rw [← List.filter_append] at hx
            simpa using (List.mem_filter.1 hx).2)
          (by omega) (by simp only [List.length_append, List.length_cons, List.length_nil]; omega)
      refine ⟨s', a', F', seen', ?_, w2, w2', ?_, ?_, c2.trans w5⟩
      · rw [KeyValueIndexedMap.forEachEntry_loop2, if_pos (by simpa using h0), JM.bind_ok (rd_ok _ ⟨h0, h1⟩)]
        dsimp only
        have hhand : handed k e s = .ok b s := by
          refine handed_spec hI hlive ?_
          cases k
          · exact hb
          · have hb' : res fuel (.getKeyAt e) s = .ok b := hb
            unfold res at hb'; rw [hm.eq hf (.getKeyAt e) trivial trivial] at hb'; exact hb'
          · have hb' : res fuel (.getValueAt e) s = .ok b := hb
            unfold res at hb'; rw [hm.eq hf (.getValueAt e) trivial trivial] at hb'; exact hb'
        have hc : handing fuel k g e s = .ok b (final fuel s (g b)) := by
          unfold handing; rw [JM.bind_ok hhand]; rfl
        rw [JM.bind_ok hc, i32_of_range (by omega)]
        simp only [List.length_append, List.length_cons, List.length_nil] at w1
        exact w1
      · rw [filter_live_trans (fun x hx => w5.live hx)] at w3
        exact w3
      · simp only [List.length_append, List.length_cons, List.length_nil] at w4 ⊢
        omega

theorem walk_loop1 (hf : 2 ^ 31 ≤ fuel) {k : Kind} {g : Out K V → List (Op K V)} {out : List (Out K V)}
    (hits0 : Int) (hh0 : hits0 < 2 ^ 31) :
    ∀ (n m : Nat) (seen : List (Out K V)) (s : Index K V) (a : Abs K V) (F : List Int) (i : Int),
      Inv False s a F → Made fuel s a → Rounds fuel k g seen s a (orderFrom s n i) out t c →
      0 ≤ i → i + n = s.heads.len → n < m → s.nexts.len < fuel → s.heads.len < 2 ^ 31 →
      (seen.length : Int) + (orderFrom s n i).length ≤ hits0 →
      ∃ h, KeyValueIndexedMap.forEachEntry_loop1 fuel (handing fuel k g) hits0 m seen seen.length i s = .ok (out, h) t
  | n, 0, _, _, _, _, _, _, _, _, _, _, h, _, _, _ => by omega
  | 0, m + 1, seen, s, a, F, i, hI, hm, hv, h0, h1, hfu, hin, hsm, hh => by
    rw [KeyValueIndexedMap.forEachEntry_loop1, JM.bind_ok (JM.get_apply _), if_neg (by simp; omega)]
    cases hv; exact ⟨_, rfl⟩
  | n + 1, m + 1, seen, s, a, F, i, hI, hm, hv, h0, h1, hfu, hin, hsm, hh => by
    rw [KeyValueIndexedMap.forEachEntry_loop1, JM.bind_ok (JM.get_apply _)]
    by_cases hlt : (seen.length : Int) < hits0
    · obtain ⟨u, hp, -⟩ := chain_at hI h0 (by omega)
      have hll := hp.length_le
      have hmem := (orderFrom_spec hI (n + 1) i h0 (by omega)).2
      rw [orderFrom] at hh hv hmem
      simp only [List.length_append] at hh
      have hh' : (seen.length : Int) + (chainOf s i).length + (orderFrom s n (i + 1)).length ≤ hits0 := by simp only [chainOf]; omega
      obtain ⟨s1, a1, F1, seen1, w1, w2, w2', w3, w4, w5⟩ :=
        walk_loop2 hf fuel _ _ seen s a F _ u hI hm hv hp (fun x hx => ((hmem x).1 hx).1) (by omega)
          (by show seen.length + (chainOf s i).length < _; omega)
      have hsame : orderFrom s1 n (i + 1) = (orderFrom s n (i + 1)).filter fun e => e ∈ a1.live :=
        orderFrom_shrunk w5 n (i + 1) (by omega) (by omega)
      have hlen := List.length_filter_le (fun e => decide (e ∈ a1.live)) (orderFrom s n (i + 1))
      rw [← hsame] at hlen w3
      rw [if_pos (by simp; omega), JM.bind_ok (rd_ok _ ⟨h0, by omega⟩), JM.bind_ok w1]
      dsimp only
      have e1 := w5.1
      have e2 := w5.2.1
      rw [i32_of_range (x := i + 1) (by omega)]
      have w4' : seen1.length ≤ seen.length + (chainOf s i).length := w4
      exact walk_loop1 hf hits0 hh0 n m seen1 s1 a1 F1 (i + 1) w2 w2' w3
        (by omega) (by omega) (by omega) (by omega) (by omega) (by omega)
    · rw [if_neg (by simp; omega)]
      have : orderFrom s (n + 1) i = [] := List.length_eq_zero_iff.1 (by omega)
      rw [this] at hv
      cases hv; exact ⟨_, rfl⟩

theorem walk_spec (hf : 2 ^ 31 ≤ fuel) (hm : Made fuel s a) {k : Kind} {g : Out K V → List (Op K V)}
    {out : List (Out K V)} (hv : Rounds fuel k g [] s a (order s) out t c) : walk fuel g k s = .ok out t := by
  obtain ⟨F, hI⟩ := reach_inv (hm.reach hf)
  have hol := order_length hI
  have hlens : Lens s := Fine.lens ⟨(hm.inv hf).1, a, F, hI⟩
  rw [walk_eq]
  unfold KeyValueIndexedMap.forEachEntry
  rw [JM.bind_ok (JM.get_apply _)]
  by_cases hz : s.size = 0
  · rw [if_pos (by simpa using hz)]
    have : order s = [] := List.length_eq_zero_iff.1 (by omega)
    rw [this] at hv
    cases hv; rfl
  · rw [if_neg (by simpa using hz)]
    have hsz : s.size ≤ 2 ^ 29 := by
      have := hI.size; have := hI.count; have := hI.next_le; have := hI.next; have := hI.nlen; have := hI.cap_pos
      omega
    unfold Lens at hlens
    obtain ⟨h, e⟩ := walk_loop1 hf s.size (by omega) s.heads.len fuel [] s a F 0 hI hm hv (by omega) (by omega)
      (by omega) (by omega) (by omega)
      (by
        have : ((orderFrom s s.heads.len 0).length : Int) = s.size := hol
        simp only [List.length_nil]; omega)
    rw [List.length_nil, show ((0 : Nat) : Int) = 0 from rfl] at e
    dsimp only
    rw [JM.bind_ok e]; rfl

/-- Wrapping what the consumer returns changes nothing but the collected list. -/
theorem forEachEntry_loop2_map {α β : Type} (f : α → β) (m : Int → JM (Index K V) α) :
    ∀ (n : Nat) (acc : List α) (hits e : Int) (s : Index K V),
    KeyValueIndexedMap.forEachEntry_loop2 (fun e => m e >>= fun x => pure (f x)) n (acc.map f) hits e s =
      (KeyValueIndexedMap.forEachEntry_loop2 m n acc hits e >>= fun r => pure (r.1.map f, r.2)) s
  | 0, _, _, _, _ => rfl
  | n + 1, acc, hits, e, s => by
    unfold KeyValueIndexedMap.forEachEntry_loop2
    split
    · simp only [assoc]
      rw [JM.bind_apply, JM.bind_apply]
      cases rd Index.nexts e s with
      | err x u => rfl
      | ok nx u =>
        dsimp only
        rw [JM.bind_apply, JM.bind_apply]
        cases m e u with
        | err x u => rfl
        | ok y u =>
          have := forEachEntry_loop2_map f m n (acc ++ [y]) (i32 (hits + 1)) nx u
          rw [List.map_append] at this
          exact this
    · rfl

theorem forEachEntry_loop1_map {α β : Type} (f : α → β) (m : Int → JM (Index K V) α) (fuel : Nat) (N : Int) :
    ∀ (n : Nat) (acc : List α) (hits head : Int) (s : Index K V),
    KeyValueIndexedMap.forEachEntry_loop1 fuel (fun e => m e >>= fun x => pure (f x)) N n (acc.map f) hits head s =
      (KeyValueIndexedMap.forEachEntry_loop1 fuel m N n acc hits head >>= fun r => pure (r.1.map f, r.2)) s
  | 0, _, _, _, _ => rfl
  | n + 1, acc, hits, head, s => by
    unfold KeyValueIndexedMap.forEachEntry_loop1
    simp only [assoc]
    rw [JM.bind_ok (JM.get_apply _), JM.bind_ok (JM.get_apply _)]
    split
    · simp only [assoc]
      rw [JM.bind_apply, JM.bind_apply]
      cases rd Index.heads head s with
      | err x u => rfl
      | ok e u =>
        dsimp only
        rw [JM.bind_apply, forEachEntry_loop2_map f m fuel acc hits e u, JM.bind_apply, JM.bind_apply]
        cases KeyValueIndexedMap.forEachEntry_loop2 m fuel acc hits e u with
        | err x u => rfl
        | ok r u => exact forEachEntry_loop1_map f m fuel N n r.1 r.2 (i32 (head + 1)) u
    · rfl

theorem forEachEntry_map {α β : Type} {f : α → β} (hf : ∀ x y, f x = f y → x = y) {m : Int → JM (Index K V) α}
    {fuel : Nat} {s t : Index K V} {l : List α}
    (h : KeyValueIndexedMap.forEachEntry fuel (fun e => m e >>= fun x => pure (f x)) s = .ok (l.map f) t) :
    KeyValueIndexedMap.forEachEntry fuel m s = .ok l t := by
  have hinj : ∀ l l' : List α, l.map f = l'.map f → l = l' := fun l l' h =>
    List.map_injective_iff.2 (fun x y h => hf x y h) h
  unfold KeyValueIndexedMap.forEachEntry at h ⊢
  rw [JM.bind_ok (JM.get_apply _)] at h ⊢
  split at h
  · rename_i hz
    rw [if_pos hz]
    injection h with h1 h2
    have : l = [] := hinj _ _ (by rw [← h1]; rfl)
    rw [this, ← h2]; rfl
  · rename_i hz
    rw [if_neg hz]
    dsimp only at h ⊢
    have e := forEachEntry_loop1_map f m fuel s.size fuel [] 0 0 s
    rw [List.map_nil] at e
    rw [JM.bind_apply, e, JM.bind_apply] at h
    rw [JM.bind_apply]
    cases hr : KeyValueIndexedMap.forEachEntry_loop1 fuel m s.size fuel [] 0 0 s with
    | err x u => rw [hr] at h; exact absurd h (by simp)
    | ok r u =>
      rw [hr] at h
      injection h with h1 h2
      have := hinj _ _ h1
      rw [← this, ← h2]; rfl

theorem tames_keep (hf : 2 ^ 31 ≤ fuel) {es rest : List Int} : ∀ (ops : List (Op K V)) {s : Index K V} {a : Abs K V},
    Made fuel s a → (∀ o ∈ ops, IntArg o) → Tames es a s ops → Ahead es a rest → AllKeepNext fuel rest.head? a s ops
  | [], _, _, _, _, _, _ => trivial
  | o :: ops, s, a, hm, hi, ht, hR => by
    obtain ⟨F, hI⟩ := reach_inv (hm.reach hf)
    have hio := hi o List.mem_cons_self
    have hq := step_quiet hI o ht.1.1 ht.1.2
    have he := hm.eq hf o hio ht.1.1
    refine ⟨hio, ht.1.1, ?_, tames_keep hf (es := es) ops (hm.call o hio ht.1.1) (fun o ho => hi o (List.mem_cons_of_mem _ ho)) ?_ ?_⟩
    · have hne : ∀ e : Int, (e ∈ a.live → e ∈ es) → rest.head? ≠ some e := by
        intro e h1 h2
        have := hR e (List.mem_of_mem_head? h2)
        exact this.2 (h1 this.1)
      have h2 := ht.1.2
      cases o <;> simp only [Tame, KeepsNext] at h2 ⊢ <;> try exact h2
      case remove k => exact fun r hr => hne _ fun _ => h2 r hr
      case removeAt e => exact hne e h2
      case removeAtAndReserve e => exact hne e fun _ => h2
    · unfold res; rw [he]; exact ht.2
    · unfold res; rw [he]; exact hq.ahead hR

theorem visits_gen (hf : 2 ^ 31 ≤ fuel) {k : Kind} {f : Consumer (Out K V) (Op K V)} {g : Out K V → List (Op K V)}
    (hfg : ∀ seen b, f (seen ++ [b]) = g b) (hi : ∀ b, ∀ o ∈ g b, IntArg o) {es : List Int} {seen : List (Out K V)}
    {rest : List Int} {out : List (Out K V)} (hv : Visits k f es seen s a rest out t c) :
    Made fuel s a → rest.Nodup → Ahead es a rest → Rounds fuel k g seen s a rest out t c := by
  induction hv with
  | done => exact fun _ _ _ => .done
  | @step es seen s a e rest out t c b hb ht _ ih =>
    intro hm hnd hR
    rw [hfg] at ht ih
    obtain ⟨F, hI⟩ := reach_inv (hm.reach hf)
    have hR1 : Ahead (es ++ [e]) a rest := by
      intro x hx
      have := hR x (List.mem_cons_of_mem _ hx)
      refine ⟨this.1, ?_⟩
      simp only [List.mem_append, List.mem_singleton, not_or]
      exact ⟨this.2, by rintro rfl; exact (List.nodup_cons.1 hnd).1 hx⟩
    have hk := tames_keep hf (g b) hm (hi b) ht hR1
    obtain ⟨r1, r2, r3, -, -, r6⟩ := hm.run hf _ (AllKeepNext.guarded _ hk)
    obtain ⟨F1, D, c1, -, -, -, c5, -⟩ := calls_quiet _ s a F hI ht hR1
    rw [← r2, ← r3] at ih
    rw [← r3] at c5
    refine .step (b := b) ?_ hk ?_
    · cases k
      · exact hb
      · show res fuel (.getKeyAt e) s = .ok b
        unfold res; rw [hm.eq hf (.getKeyAt e) trivial trivial]; exact hb
      · show res fuel (.getValueAt e) s = .ok b
        unfold res; rw [hm.eq hf (.getValueAt e) trivial trivial]; exact hb
    · rw [List.filter_eq_self.2 (fun x hx => by simpa using (c5 x hx).1)]
      exact ih r6 (List.nodup_cons.1 hnd).2 c5

end Verif.Link.Map

namespace Verif
open Verif.Index Verif.IndexSpec
open Link.Map (Made res IntArg)
variable {K V : Type} [Inhabited K] [Inhabited V] {fuel : Nat} {s : Index K V} {a : Abs K V}

/-- C93 for the generated class (partial as `C93_removals_partial`: consumers that add no key, do not clear and do not
remove the entry that comes next): the walk visits the entries in the order `l` in which `forEachEntry` lists them at
the start, skipping those removed before it reaches them.  It visits none twice and every entry that is still held at
the end; what it hands out for keys are the keys it would hand out without the calls, in that order, without those
skipped.  The collection ends up as the calls say. -/
theorem C93_generated_removals_partial (hf : 2 ^ 31 ≤ fuel) (h : Made fuel s a) (k : Kind)
    (g : Out K V → List (Op K V)) (l : List Int) (hl : res fuel .forEachEntry s = .ok (.ints l))
    (out : List (Out K V)) (t : Index K V) (b : Abs K V) (hv : Link.Map.Rounds fuel k g [] s a l out t b) :
    Link.Map.walk fuel g k s = .ok out t ∧ Made fuel t b ∧
      ∃ es : List Int, es.Sublist l ∧ out.length = es.length ∧ (∀ e ∈ l, e ∈ b.live → e ∈ es) ∧
        (k = .entries → out = es.map .int) ∧
        (k = .keys → ∃ key : Int → K, (∀ e ∈ l, res fuel (.getKeyAt e) s = .ok (.key (key e))) ∧
          res fuel .forEach s = .ok (.keys (l.map key)) ∧ out = (es.map key).map .key) := by
  obtain ⟨F, hI⟩ := reach_inv (h.reach hf)
  have q : ∀ o : Op K V, IntArg o → Guard o a → res fuel o s = result o s := fun o h1 h2 => by
    unfold res; rw [h.eq hf o h1 h2]
  rw [q .forEachEntry trivial trivial] at hl
  have hlo : l = order s := by
    have : result .forEachEntry s = .ok (.ints (order s)) := by
      simp only [result, step]; rw [JM.bind_ok (forEachEntry_spec hI)]; rfl
    rw [this] at hl; simpa using hl.symm
  subst hlo
  obtain ⟨m1, m2⟩ := hv.model hf h
  obtain ⟨-, -, es, e1, e2, e3, e4, e5⟩ := C93_removals_partial (h.reach hf) k (perValue g) _ hl out t b m1
  refine ⟨Link.Map.walk_spec hf h hv, m2, es, e1, e2, e3, e4, fun hk => ?_⟩
  obtain ⟨key, k1, k2, k3⟩ := e5 hk
  exact ⟨key, fun e he => by rw [q (.getKeyAt e) trivial trivial]; exact k1 e he,
    by rw [q .forEach trivial trivial]; exact k2, k3⟩

/-- C93, updating, for the generated class: `m.forEachEntry(e -> m.putValueAt(e, v(e)))` visits every entry once, and
afterwards the collection holds the same keys at the same entries, each with the value `v` of its entry. -/
theorem C93_generated_update_all (hf : 2 ^ 31 ≤ fuel) (h : Made fuel s a) (v : Int → V)
    (l : List Int) (hl : res fuel .forEachEntry s = .ok (.ints l)) :
    ∃ t b, Gen.KeyValueIndexedMap.forEachEntry fuel
        (consumerOf (Link.Map.step fuel) fun e => [.putValueAt e (v e)]) s = .ok l t ∧ Made fuel t b ∧
      b.rows = a.rows.map fun r => { r with val := v r.entry } := by
  obtain ⟨F, hI⟩ := reach_inv (h.reach hf)
  have q : res fuel .forEachEntry s = result .forEachEntry s := by
    unfold res; rw [h.eq hf .forEachEntry trivial trivial]
  have hle : result .forEachEntry s = .ok (.ints (order s)) := by
    simp only [result, step]; rw [JM.bind_ok (forEachEntry_spec hI)]; rfl
  obtain rfl : l = order s := by rw [q, hle] at hl; simpa using hl.symm
  obtain ⟨t, b, h1, h2⟩ := update_all_visits v (order s) [] [] s a
  let g : Out K V → List (Op K V) := fun b => match b with | .int e => [.putValueAt e (v e)] | _ => []
  have hw := Link.Map.visits_gen hf (g := g) (fun seen b => by cases b <;> simp [lastEntry, g])
    (fun b o ho => by cases b <;> simp [g] at ho; subst ho; trivial) h1 h
    (orderFrom_spec hI s.heads.len 0 (by omega) (by omega)).1
    (fun x hx => ⟨(order_perm hI).mem_iff.1 hx, by simp⟩)
  obtain ⟨g1, g2, -⟩ := C93_generated_removals_partial hf h .entries g _ hl _ t b hw
  refine ⟨t, b, ?_, g2, ?_⟩
  · have e1 : (fun e => consumerOf (Link.Map.step fuel) g (.int e) : Int → JM (Index K V) (Out K V)) =
        fun e => consumerOf (Link.Map.step fuel) (fun e => [.putValueAt e (v e)]) e >>= fun e => pure (.int e) := rfl
    simp only [Link.Map.walk, List.nil_append] at g1
    rw [e1] at g1
    exact Link.Map.forEachEntry_map (fun x y h => by injection h) g1
  · rw [h2]
    apply List.map_congr_left
    intro r hr
    rw [if_pos ((order_perm hI).mem_iff.2 (List.mem_map_of_mem hr))]

/-- C93, removing, for the generated class: `m.forEach(k -> { if (P(k)) m.remove(k); })` is handed the same keys as
without the removals, and afterwards the collection holds exactly the other keys (and those not equal to themselves,
which `remove` cannot find), each at its entry and with its value. -/
theorem C93_generated_remove_keys (hf : 2 ^ 31 ≤ fuel) (h : Made fuel s a) (P : K → Bool)
    (ks : List K) (hl : res fuel .forEach s = .ok (.keys ks)) :
    ∃ t b, Gen.KeyValueIndexedMap.forEach fuel
        (consumerOf (Link.Map.step fuel) fun k => if P k then [.remove k] else []) s = .ok ks t ∧ Made fuel t b ∧
      ∀ r, r ∈ b.rows ↔ r ∈ a.rows ∧ ¬ (P r.key ∧ a.eq r.key r.key) := by
  obtain ⟨F, hI⟩ := reach_inv (h.reach hf)
  have q : ∀ o : Op K V, IntArg o → Guard o a → res fuel o s = result o s := fun o h1 h2 => by
    unfold res; rw [h.eq hf o h1 h2]
  have hle : result .forEachEntry s = .ok (.ints (order s)) := by
    simp only [result, step]; rw [JM.bind_ok (forEachEntry_spec hI)]; rfl
  obtain ⟨out, t, b, h1, h2⟩ := remove_keys_visits P (order s) [] [] s a F hI
    (orderFrom_spec hI s.heads.len 0 (by omega) (by omega)).1 (fun e he => (order_perm hI).mem_iff.1 he)
  let g : Out K V → List (Op K V) := fun b => match b with | .key k => if P k then [.remove k] else [] | _ => []
  have hw := Link.Map.visits_gen hf (g := g) (fun seen b => by
      cases b <;> simp [lastKey, g]
      rename_i k
      cases hP : P k <;> simp [hP])
    (fun b o ho => by
      cases b <;> simp [g] at ho
      rw [ho.2]; trivial) h1 h
    (orderFrom_spec hI s.heads.len 0 (by omega) (by omega)).1
    (fun x hx => ⟨(order_perm hI).mem_iff.1 hx, by simp⟩)
  obtain ⟨g1, g2, es, -, -, -, -, g6⟩ := C93_generated_removals_partial hf h .keys g _
    (by rw [q .forEachEntry trivial trivial]; exact hle) _ t b hw
  obtain ⟨-, -, -, m4⟩ := C93_consumer_partial (h.reach hf) .keys _ _ hle out t b h1
  obtain ⟨ks', m5, m6⟩ := m4 rfl
  rw [q .forEach trivial trivial, m5] at hl
  simp only [Except.ok.injEq, Out.keys.injEq] at hl
  subst hl m6
  refine ⟨t, b, ?_, g2, fun r => ?_⟩
  · have e1 : (fun k => consumerOf (Link.Map.step fuel) g (.key k) : K → JM (Index K V) (Out K V)) =
        fun k => consumerOf (Link.Map.step fuel) (fun k => if P k then [.remove k] else []) k >>= fun k => pure (.key k) := rfl
    simp only [Link.Map.walk] at g1
    rw [e1, Link.Map.forEach_gen] at g1
    rw [Link.Map.forEach_gen]
    refine Link.Map.forEachEntry_map (f := Out.key (K := K) (V := V)) (fun x y h => by injection h) ?_
    rw [← g1]
    congr 2
    funext e
    simp only [Link.assoc]
  · rw [h2]
    exact ⟨fun hh => ⟨hh.1, hh.2 ((order_perm hI).mem_iff.2 (List.mem_map_of_mem hh.1))⟩, fun hh => ⟨hh.1, fun _ => hh.2⟩⟩

/-- What a generated `forEach` method hands out, with a consumer that makes the calls `g b`, after a history on a new
map of ints. -/
def Link.Map.handedOut (ic : Int) (lf : Nat × Nat) (ops : List (Op Int Int)) (k : Kind)
    (g : Out Int Int → List (Op Int Int)) : Except Err (List (Out Int Int)) :=
  match Gen.KeyValueIndexedMap.init2 (fun k : Int => BitVec.ofInt 32 k) (fun a b => a == b) ic lf rawIndex with
  | .ok _ s => (Link.Map.walk 40 g k (Link.Map.final 40 s ops)).out
  | .err e _ => .error e

/-- C93 is false of the generated class if the consumer removes the entry that comes next, adds a key, or clears. -/
theorem C93_generated_refuted :
    Link.Map.handedOut 4 (3, 4) [.put 1 5, .put 9 6, .put 17 7] .keys
      (fun b => if b = .key 17 then [.remove 9] else []) = .ok [.key 17, .key 0] ∧
    Link.Map.handedOut 16 (3, 4) [.put 1 5, .put 4 6, .put 7 7] .keys
      (fun b => if b = .key 1 then [.add 2] else []) = .ok [.key 1, .key 2, .key 4] ∧
    Link.Map.handedOut 4 (3, 4) [.put 1 5, .put 9 6] .keys (fun _ => [.clear]) = .ok [.key 9, .key 0] := by
  decide +kernel

/- Non-vacuity: four keys in one chain; at the first the consumer removes the third, which the walk then skips. -/
example : Link.Map.handedOut 8 (3, 4) [.put 1 5, .put 9 6, .put 17 7, .put 25 8] .keys
    (fun b => if b = .key 25 then [.remove 9] else []) = .ok [.key 25, .key 17, .key 1] := by decide +kernel
/-- The map of the example, made by the generated class. -/
def Link.Map.fourKeys (fuel : Nat) : Res (Index Int Int) Unit :=
  match Gen.KeyValueIndexedMap.init2 (fun k : Int => BitVec.ofInt 32 k) (fun a b => a == b) 8 (3, 4) rawIndex with
  | .ok _ s => .ok () (Link.Map.final fuel s [.put 1 5, .put 9 6, .put 17 7, .put 25 8])
  | .err e s => .err e s

example : ∃ a : Abs Int Int, ∃ out t b,
    Link.Map.Rounds (2 ^ 31) .keys (fun b => if b = .key 25 then [.remove 9] else []) []
      (Link.Map.fourKeys (2 ^ 31)).state a [3, 2, 1, 0] out t b ∧
      out = [.key 25, .key 17, .key 1] ∧ res (2 ^ 31) .size t = .ok (.int 3) := by
  refine ⟨⟨[⟨0, 1, 5⟩, ⟨1, 9, 6⟩, ⟨2, 17, 7⟩, ⟨3, 25, 8⟩], [], [], 4, fun k : Int => BitVec.ofInt 32 k, fun a b => a == b⟩,
    _, _, _, .step (b := .key 25) ?_ ?_ (.step (b := .key 17) ?_ ?_ (.step (b := .key 1) ?_ ?_ .done)), rfl, ?_⟩
  · show (_ : Except _ _) = _; decide +kernel
  · refine ⟨trivial, trivial, ?_, trivial⟩
    intro r hr
    have : r = ⟨1, 9, 6⟩ := Option.some.inj (hr.symm.trans rfl)
    subst this; decide
  · show (_ : Except _ _) = _; decide +kernel
  · exact trivial
  · show (_ : Except _ _) = _; decide +kernel
  · exact trivial
  · decide +kernel

end Verif
