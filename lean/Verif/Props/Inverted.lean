import Verif.Proofs.Inverted
import Mathlib.Data.List.Induction
/-! C85: the inverted index of the examples. -/
namespace Verif
open InvertedIndex CatalogSpec Convert

/-- **C85** The specification means what it should: the orders of a term are exactly those added with that
term as symbol or strategy, each once. -/
theorem C85_meaning (calls : List Call) (t : Option JString) :
    (ordersOf t (facts calls)).Nodup ∧
    ∀ o, o ∈ ordersOf t (facts calls) ↔
      ∃ symbol strategy, Call.add o symbol strategy ∈ calls ∧ (t = symbol ∨ t = strategy) := by
  have key : ∀ l : List Call, (facts l).Nodup ∧ ∀ o t, (t, o) ∈ facts l ↔
      ∃ symbol strategy, Call.add o symbol strategy ∈ l ∧ (t = symbol ∨ t = strategy) := by
    intro l
    induction l using List.reverseRecOn with
    | nil => exact ⟨List.nodup_nil, by simp [facts]⟩
    | append_singleton l c ih =>
      rw [facts_snoc]
      have nd : ∀ {f : Option JString × BitVec 64} {l : List (Option JString × BitVec 64)}, l.Nodup → (record f l).Nodup := by
        intro f l h
        unfold record
        split
        · exact h
        · rename_i hf; exact List.nodup_cons.2 ⟨hf, h⟩
      cases c with
      | add o' a b =>
        refine ⟨nd (nd ih.1), fun o t => ?_⟩
        simp only [afterCall, mem_record, ih.2, Prod.mk.injEq, List.mem_append, List.mem_singleton, Call.add.injEq]
        constructor
        · rintro (⟨rfl, rfl⟩ | ⟨rfl, rfl⟩ | ⟨x, y, h1, h2⟩)
          · exact ⟨a, t, .inr ⟨rfl, rfl, rfl⟩, .inr rfl⟩
          · exact ⟨t, b, .inr ⟨rfl, rfl, rfl⟩, .inl rfl⟩
          · exact ⟨x, y, .inl h1, h2⟩
        · rintro ⟨x, y, h1 | ⟨rfl, rfl, rfl⟩, h2⟩
          · exact .inr (.inr ⟨x, y, h1, h2⟩)
          · rcases h2 with rfl | rfl
            · exact .inr (.inl ⟨rfl, rfl⟩)
            · exact .inl ⟨rfl, rfl⟩
      | count t => simpa [afterCall] using ih
      | iterate t => simpa [afterCall] using ih
  obtain ⟨h1, h2⟩ := key calls
  constructor
  · unfold ordersOf
    refine List.Nodup.map_on ?_ (h1.filter _)
    intro x hx y hy hxy
    have e1 := (List.mem_filter.1 hx).2
    have e2 := (List.mem_filter.1 hy).2
    simp only [decide_eq_true_eq] at e1 e2
    exact Prod.ext (e1.trans e2.symm) hxy
  · intro o
    rw [← h2]
    unfold ordersOf
    simp only [List.mem_map, List.mem_filter, decide_eq_true_eq]
    constructor
    · rintro ⟨⟨x, y⟩, ⟨h3, h4⟩, rfl⟩; simp only at h4; subst h4; exact h3
    · intro h; exact ⟨_, ⟨h, rfl⟩, rfl⟩

/-- **C85** In every history of fewer than about 2^28 additions, every call gives the right result, except that
`iterate` may throw for a term with exactly one order once there are more than 128 associations. -/
theorem C85_results_partial {s : InvertedIndex} (h : new = .ok s) (calls : List Call)
    (ha : 2 * adds calls + 32 < 2 ^ 29) (m : Nat) (c : Call) (hm : calls[m]? = some c) :
    ∃ r, (runM step s calls).1[m]? = some r ∧
      (Right (facts (calls.take m)) c r ∨ Wrong (facts (calls.take m)) c r) := by
  refine ⟨_, runM_getElem step calls s m c hm, ?_⟩
  have hlt : m < calls.length := by rw [List.getElem?_eq_some_iff] at hm; exact hm.1
  have hle : adds (calls.take m) ≤ adds calls := by
    unfold adds; exact (List.take_sublist m calls).countP_le
  exact (step_rel (run_rel h calls m (by omega) ha) c (by omega)).1

/-- **C85** In every history with at most 128 associations of a term and an order, every call gives the right
result. -/
theorem C85_small_partial {s : InvertedIndex} (h : new = .ok s) (calls : List Call)
    (ha : 2 * adds calls + 32 < 2 ^ 29) (m : Nat) (c : Call) (hm : calls[m]? = some c)
    (hs : (facts (calls.take m)).length ≤ 128) :
    ∃ r, (runM step s calls).1[m]? = some r ∧ Right (facts (calls.take m)) c r := by
  obtain ⟨r, h1, h2 | h2⟩ := C85_results_partial h calls ha m c hm
  · exact ⟨r, h1, h2⟩
  · exfalso
    cases c with
    | add => exact h2
    | count => exact h2
    | iterate t => have := h2.2.1; omega

/-- An order with two terms of its own: the texts consisting of the one character `2n` or `2n+1`. -/
def lonely (n : Nat) : Call := .add (BitVec.ofNat 64 n) (some [BitVec.ofNat 16 (2 * n)]) (some [BitVec.ofNat 16 (2 * n + 1)])

/-- The results of a history on a new index. -/
def indexResults (calls : List Call) : List (Except Err Result) :=
  match new with
  | .ok s => (runM step s calls).1
  | .error _ => []

/-- **C85** is false: with 65 orders, each with two terms of its own, the last order is counted for its terms,
but iterating them throws. -/
theorem C85_iterate_refuted :
    (indexResults ((List.range 65).map lonely ++ [.count (some [128#16]), .iterate (some [128#16]),
      .iterate (some [127#16])])).drop 65 =
    [.ok (.int 1), .error .indexOutOfBounds, .ok (.orders [63#64])] := by decide +kernel

/-- An index can be created, and a history with a repeated addition and with one term used on both sides. -/
example : ∃ s, new = .ok s ∧ indexResults [.add 7 (some [65#16]) (some [66#16]), .add 8 (some [66#16]) none,
      .add 7 (some [65#16]) (some [66#16]), .count (some [66#16]), .iterate (some [66#16]), .iterate none,
      .count (some [67#16]), .iterate (some [67#16])] =
    [.ok .unit, .ok .unit, .ok .unit, .ok (.int 2), .ok (.orders [8, 7]), .ok (.orders [8]), .ok (.int 0),
      .ok (.orders [])] := ⟨_, rfl, by decide +kernel⟩

end Verif
