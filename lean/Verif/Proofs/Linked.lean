import Verif.Spec.Hydra
/-! Linked lists in arrays: `f` maps every element of `l` to (the code of) the rest of `l`. -/
namespace Verif.Linked

/-- First element or -1. -/
def hd : List Int → Int
  | [] => -1
  | e :: _ => e

/-- `f e` is the element after `e`, -1 at the end. -/
def Links (f : Int → Int) : List Int → Prop
  | [] => True
  | e :: l => f e = hd l ∧ Links f l

@[simp] theorem hd_nil : hd [] = -1 := rfl
@[simp] theorem hd_cons (e : Int) (l) : hd (e :: l) = e := rfl
theorem hd_append {l : List Int} (h : l ≠ []) (m : List Int) : hd (l ++ m) = hd l := by
  cases l with
  | nil => exact absurd rfl h
  | cons e l => rfl
theorem hd_mem {l : List Int} (h : l ≠ []) : hd l ∈ l := by
  cases l with
  | nil => exact absurd rfl h
  | cons e l => simp

theorem Links.congr {f g : Int → Int} {l : List Int} (h : ∀ e ∈ l, f e = g e) (hf : Links f l) :
    Links g l := by
  induction l with
  | nil => trivial
  | cons e l ih =>
    exact ⟨by rw [← h e (by simp)]; exact hf.1, ih (fun x hx => h x (by simp [hx])) hf.2⟩

theorem Links.tail {f : Int → Int} {e : Int} {l : List Int} (h : Links f (e :: l)) : Links f l := h.2

/-- Putting `e` in front of the end: only the old last element's link changes. -/
theorem Links.snoc {f g : Int → Int} {l : List Int} {e : Int} (hf : Links f l)
    (hn : (l ++ [e]).Nodup)
    (hsame : ∀ x ∈ l, x ≠ hd l.reverse → g x = f x) (hlast : l ≠ [] → g (hd l.reverse) = e)
    (he : g e = -1) : Links g (l ++ [e]) := by
  induction l with
  | nil => exact ⟨he, trivial⟩
  | cons x l ih =>
    cases l with
    | nil =>
      refine ⟨?_, he, trivial⟩
      have := hlast (by simp)
      simpa using this
    | cons y l =>
      have hrev : hd (x :: y :: l).reverse = hd (y :: l).reverse := by
        rw [List.reverse_cons, hd_append (by simp)]
      have hn' := (List.nodup_cons.mp hn)
      have hx : x ≠ hd (y :: l).reverse := by
        intro hc
        apply hn'.1
        rw [hc]
        have : hd (y :: l).reverse ∈ (y :: l).reverse := hd_mem (by simp)
        exact List.mem_append_left [e] (List.mem_reverse.mp this)
      refine ⟨?_, ih hf.2 hn'.2 ?_ ?_⟩
      · rw [hsame x (by simp) (by rw [hrev]; exact hx), hf.1]; rfl
      · intro z hz hz'
        exact hsame z (by simp [List.mem_cons.mp hz]) (by rw [hrev]; exact hz')
      · intro _
        rw [← hrev]; exact hlast (by simp)

/-- Dropping the last element `e`: the link of the one before becomes -1. -/
theorem Links.dropLast {f g : Int → Int} {l : List Int} {e : Int} (hf : Links f (l ++ [e]))
    (hn : (l ++ [e]).Nodup)
    (hsame : ∀ x ∈ l, x ≠ hd l.reverse → g x = f x) (hlast : l ≠ [] → g (hd l.reverse) = -1) :
    Links g l := by
  induction l with
  | nil => trivial
  | cons x l ih =>
    cases l with
    | nil => exact ⟨by simpa using hlast (by simp), trivial⟩
    | cons y l =>
      have hrev : hd (x :: y :: l).reverse = hd (y :: l).reverse := by
        rw [List.reverse_cons, hd_append (by simp)]
      have hn' := (List.nodup_cons.mp hn)
      have hx : x ≠ hd (y :: l).reverse := by
        intro hc
        apply hn'.1
        rw [hc]
        have : hd (y :: l).reverse ∈ (y :: l).reverse := hd_mem (by simp)
        exact List.mem_append_left [e] (List.mem_reverse.mp this)
      refine ⟨?_, ih hf.2 hn'.2 ?_ ?_⟩
      · rw [hsame x (by simp) (by rw [hrev]; exact hx), hf.1]; rfl
      · intro z hz hz'
        exact hsame z (by simp [List.mem_cons.mp hz]) (by rw [hrev]; exact hz')
      · intro _
        rw [← hrev]; exact hlast (by simp)

/-- The link of the last element. -/
theorem Links.last {f : Int → Int} {l : List Int} {e : Int} (hf : Links f (l ++ [e])) : f e = -1 := by
  induction l with
  | nil => exact hf.1
  | cons x l ih => exact ih hf.2

/-- Code of a free list: -1 when empty, `-e - 2` when `e` is first. -/
def code : List Int → Int
  | [] => -1
  | e :: _ => -e - 2

@[simp] theorem code_nil : code [] = -1 := rfl
@[simp] theorem code_cons (e : Int) (l) : code (e :: l) = -e - 2 := rfl

/-- `f e` is the code of the rest of the free list. -/
def Free (f : Int → Int) : List Int → Prop
  | [] => True
  | e :: l => f e = code l ∧ Free f l

theorem Free.congr {f g : Int → Int} {l : List Int} (h : ∀ e ∈ l, f e = g e) (hf : Free f l) :
    Free g l := by
  induction l with
  | nil => trivial
  | cons e l ih =>
    exact ⟨by rw [← h e (by simp)]; exact hf.1, ih (fun x hx => h x (by simp [hx])) hf.2⟩

/-- Sum of the lengths of the first `n` lists. -/
def sumLen {β : Type} (L : Int → List β) : Nat → Nat
  | 0 => 0
  | n + 1 => sumLen L n + (L n).length

open HydraSpec

theorem sumLen_ext {β γ : Type} {L : Int → List β} {M : Int → List γ} (n : Nat)
    (h : ∀ i : Nat, i < n → (L i).length = (M i).length) : sumLen L n = sumLen M n := by
  induction n with
  | zero => rfl
  | succ n ih =>
    rw [sumLen, sumLen, h n (by omega), ih (fun i hi => h i (by omega))]

theorem sumLen_upd {β : Type} (L : Int → List β) (i : Int) (l : List β) (n : Nat)
    (h : 0 ≤ i ∧ i < n) : sumLen (upd L i l) n + (L i).length = sumLen L n + l.length := by
  induction n with
  | zero => omega
  | succ n ih =>
    by_cases hi : i = n
    · subst hi
      have : sumLen (upd L n l) n = sumLen L n :=
        sumLen_ext n (fun j hj => by unfold upd; rw [if_neg (by omega)])
      rw [sumLen, sumLen, this]
      simp only [upd, if_true]; omega
    · have h2 : (upd L i l n) = L n := by
        unfold upd; rw [if_neg (by omega)]
      rw [sumLen, sumLen, h2]
      have := ih (by omega); omega

theorem sumLen_mono {β : Type} (L : Int → List β) (n m : Nat) (h : n ≤ m)
    (h0 : ∀ i : Int, n ≤ i → L i = []) : sumLen L m = sumLen L n := by
  induction m with
  | zero => have : n = 0 := by omega
            rw [this]
  | succ m ih =>
    by_cases hm : n = m + 1
    · rw [hm]
    · rw [sumLen, ih (by omega), h0 m (by omega)]; rfl

theorem sumLen_zero {β : Type} (L : Int → List β) (n : Nat) (h : sumLen L n = 0) (i : Nat)
    (hi : i < n) : L i = [] := by
  induction n with
  | zero => omega
  | succ n ih =>
    rw [sumLen] at h
    by_cases hin : i = n
    · subst hin; exact List.length_eq_zero_iff.mp (by omega)
    · exact ih (by omega) (by omega)

end Verif.Linked
