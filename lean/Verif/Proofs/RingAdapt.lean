import Verif.Model.RingAdapt
import Verif.Spec.RingAdapt
import Verif.Proofs.Lines
/- Helper lemmas for C170. -/
namespace Vmap
open Spec Kernel

/-- Reading takes bytes off the front. -/
def Feeds {ρ : Type} (rd : RingRead ρ) (H : ρ → List Byte → Prop) : Prop :=
  ∀ r q, H r q → ∀ n, ∃ r', rd r n = .ok (r', q.take n) ∧ H r' (q.drop n)

variable {t : Target} {k : Kernel}

theorem ring_feeds (n : Nat) : Feeds (fun (r : Ring) m => r.read t k m)
    (fun r q => ∃ sp, View t k r n q sp) := by
  rintro r q ⟨sp, v⟩ m
  obtain ⟨k', r', e, v', -, -⟩ := v.step (.read m) v.below
  simp only [Ring.exec, bind, Except.bind] at e
  cases hr : r.read t k m with
  | error f => rw [hr] at e; cases e
  | ok x =>
    rw [hr] at e
    obtain ⟨r1, bs⟩ := x
    simp only [pure, Except.pure, Win.step, Except.ok.injEq, Prod.mk.injEq, Resp.bytes.injEq] at e
    obtain ⟨⟨e1, e2⟩, e3⟩ := e
    subst e1 e2 e3
    exact ⟨r1, hr, _, v'⟩

theorem inf_feeds (n : Nat) : Feeds (fun (r : InfiniteRing) m => r.read t k m)
    (fun r q => InfView t k r n q) := by
  intro r q h m
  obtain ⟨o, old, h1⟩ := h.rep
  obtain ⟨k', r', e, h', -, -, -, -⟩ := inf_step h1 (.read m) h.below trivial
  have a := InfAt.call (op := .read m) (w := r.len) h.at_ rfl (by simp) h.below trivial e
  simp only [InfiniteRing.exec, bind, Except.bind] at e
  cases hr : r.read t k m with
  | error f => rw [hr] at e; cases e
  | ok x =>
    rw [hr] at e
    obtain ⟨r1, bs⟩ := x
    simp only [pure, Except.pure, Lossy.step, Except.ok.injEq, Prod.mk.injEq, Resp.bytes.injEq] at e
    obtain ⟨⟨e1, e2⟩, e3⟩ := e
    subst e1 e2 e3
    exact ⟨r1, hr, a, o, _, h'⟩

section
variable {ρ ω : Type} {rd : RingRead ρ} {H : ρ → List Byte → Prop}

theorem take_feeds (f : Feeds rd H) (rest : List Byte) (base : Nat) : Feeds (takeRead rd)
    (fun p q => ∃ all, H p.1 all ∧ q = all.take p.2 ∧ all.drop p.2 = rest ∧ p.2 = base + q.length) := by
  rintro ⟨r, limit⟩ q ⟨all, h, rfl, hr, hb⟩ n
  simp only at h hr hb ⊢
  have hb' : limit = base + min limit all.length := by rw [List.length_take] at hb; exact hb
  by_cases hz : limit = 0
  · subst hz
    exact ⟨(r, 0), by simp [takeRead, pure, Except.pure], all, h, by simp, hr, by simpa using hb⟩
  · obtain ⟨r', e, h'⟩ := f r all h (min n limit)
    have hl : (all.take (min n limit)).length = min (min n limit) all.length := List.length_take
    have ht : (all.take limit).take n = all.take (min n limit) := List.take_take
    refine ⟨(r', limit - (all.take (min n limit)).length), ?_, _, h', ?_, ?_, ?_⟩
    · simp only [takeRead, if_neg hz, e, bind, Except.bind]
      rw [if_neg (by omega), ht]; rfl
    · rw [hl]
      simp only [List.drop_take]
      rcases Nat.le_total n limit with hn | hn
      · rw [Nat.min_eq_left hn]
        rcases Nat.le_total n all.length with ha | ha
        · rw [Nat.min_eq_left ha]
        · rw [List.drop_eq_nil_of_le ha, List.take_nil, List.take_nil]
      · rw [Nat.min_eq_right hn, show limit - n = 0 by omega, List.take_zero]
        rcases Nat.le_total limit all.length with ha | ha
        · rw [Nat.min_eq_left ha, Nat.sub_self, List.take_zero]
        · rw [List.drop_eq_nil_of_le ha, List.take_nil]
    · rw [hl, List.drop_drop, ← hr]
      rcases Nat.le_total (min n limit) all.length with ha | ha
      · rw [Nat.min_eq_left ha]; congr 1; omega
      · rw [List.drop_eq_nil_of_le (by omega), List.drop_eq_nil_of_le (by omega)]
    · simp only [hl, List.length_drop, List.length_take]
      omega

theorem readAll_feeds (f : Feeds rd H) : ∀ (fuel : Nat) (sz : Nat → Nat) (r : ρ) (q acc : List Byte),
    (∀ i, 0 < sz i) → H r q → q.length < fuel →
    ∃ r', readAll rd fuel sz r acc = .ok (some (r', acc ++ q)) ∧ H r' [] := by
  intro fuel
  induction fuel with
  | zero => intro _ _ _ _ _ _ h; omega
  | succ fuel ih =>
    intro sz r q acc hsz h hf
    obtain ⟨r', e, h'⟩ := f r q h (sz 0)
    have h0 := hsz 0
    have hl : (q.take (sz 0)).length = min (sz 0) q.length := List.length_take
    simp only [readAll, e, bind, Except.bind]
    by_cases hb : (q.take (sz 0)).length = 0
    · have hq : q = [] := List.eq_nil_of_length_eq_zero (by omega)
      subst hq
      rw [if_pos hb]
      exact ⟨r', by simp [pure, Except.pure], by simpa using h'⟩
    · rw [if_neg hb]
      obtain ⟨r2, e2, h2⟩ := ih (fun i => sz (i + 1)) r' (q.drop (sz 0)) (acc ++ q.take (sz 0))
        (fun i => hsz _) h' (by rw [List.length_drop]; omega)
      exact ⟨r2, by rw [e2, List.append_assoc, List.take_append_drop], h2⟩

theorem collectBytes_feeds (f : Feeds rd H) : ∀ (steps : Nat) (r : ρ) (q : List Byte),
    H r q → q.length < steps → ∃ r', collectBytes rd steps r = .ok (some (r', q)) ∧ H r' [] := by
  intro steps
  induction steps with
  | zero => intro _ _ _ h; omega
  | succ steps ih =>
    intro r q h hs
    obtain ⟨r', e, h'⟩ := f r q h 1
    simp only [collectBytes, bytesNext, e, bind, Except.bind, pure, Except.pure]
    cases q with
    | nil => exact ⟨r', rfl, by simpa using h'⟩
    | cons b q =>
      simp only [List.take_succ_cons, List.take_zero, List.head?_cons]
      obtain ⟨r2, e2, h2⟩ := ih r' q (by simpa using h') (by simp at hs; omega)
      simp only [e2]
      exact ⟨r2, rfl, h2⟩

/-- Reading everything from a chain. -/
theorem readAll_chain {rd' : RingRead ω} {G : ω → List Byte → Prop} (f : Feeds rd H) (g : Feeds rd' G) :
    ∀ (fuel : Nat) (sz : Nat → Nat) (a : ρ) (b : ω) (qa qb acc : List Byte), (∀ i, 0 < sz i) → H a qa → G b qb →
    qa.length + qb.length < fuel →
    ∃ a' b' d, readAll (chainRead rd rd') fuel sz (a, b, false) acc = .ok (some ((a', b', d), acc ++ qa ++ qb)) ∧
      H a' [] ∧ G b' [] := by
  have second : ∀ (a : ρ), Feeds (chainRead rd rd') (fun p q => p.1 = a ∧ G p.2.1 q ∧ p.2.2 = true) := by
    rintro a ⟨a0, b, d⟩ q ⟨h1, h2, h3⟩ n
    simp only at h1 h2 h3
    subst h1 h3
    obtain ⟨b', e, h'⟩ := g b q h2 n
    exact ⟨(a0, b', true), by simp [chainRead, e, bind, Except.bind, pure, Except.pure], rfl, h', rfl⟩
  intro fuel
  induction fuel with
  | zero => intro _ _ _ _ _ _ _ _ _ h; omega
  | succ fuel ih =>
    intro sz a b qa qb acc hsz ha hb hf
    obtain ⟨a', e, h'⟩ := f a qa ha (sz 0)
    have h0 := hsz 0
    have hl : (qa.take (sz 0)).length = min (sz 0) qa.length := List.length_take
    by_cases hz : (qa.take (sz 0)).length = 0
    · have hq : qa = [] := List.eq_nil_of_length_eq_zero (by omega)
      subst hq
      obtain ⟨b', e', g'⟩ := g b qb hb (sz 0)
      have hc : chainRead rd rd' (a, b, false) (sz 0) = .ok ((a', b', true), qb.take (sz 0)) := by
        simp only [chainRead, e, bind, Except.bind, List.take_nil, List.length_nil, true_and, ne_eq,
          pure, Except.pure]
        rw [if_neg Bool.false_ne_true, if_pos (by omega), e']
      have hl2 : (qb.take (sz 0)).length = min (sz 0) qb.length := List.length_take
      simp only [readAll, hc, bind, Except.bind]
      by_cases hz2 : (qb.take (sz 0)).length = 0
      · have hq : qb = [] := List.eq_nil_of_length_eq_zero (by omega)
        subst hq
        rw [if_pos hz2]
        exact ⟨a', b', true, by simp [pure, Except.pure], by simpa using h', by simpa using g'⟩
      · rw [if_neg hz2]
        obtain ⟨⟨a2, b2, d2⟩, e2, x1, x2, x3⟩ := readAll_feeds (second a') fuel (fun i => sz (i + 1)) (a', b', true)
          (qb.drop (sz 0)) (acc ++ qb.take (sz 0)) (fun i => hsz _) ⟨rfl, g', rfl⟩
          (by rw [List.length_drop]; simp at hf; omega)
        simp only at x1 x2 x3
        subst x1
        refine ⟨a2, b2, d2, ?_, by simpa using h', x2⟩
        rw [e2, List.append_nil, List.append_assoc, List.take_append_drop]
    · have hc : chainRead rd rd' (a, b, false) (sz 0) = .ok ((a', b, false), qa.take (sz 0)) := by
        simp only [chainRead, e, bind, Except.bind, pure, Except.pure]
        rw [if_neg (by decide), if_neg (fun h => hz h.1)]
      simp only [readAll, hc, bind, Except.bind]
      rw [if_neg hz]
      obtain ⟨a2, b2, d2, e2, x1, x2⟩ := ih (fun i => sz (i + 1)) a' b (qa.drop (sz 0)) qb (acc ++ qa.take (sz 0))
        (fun i => hsz _) h' hb (by rw [List.length_drop]; omega)
      exact ⟨a2, b2, d2, by rw [e2, List.append_assoc acc, List.take_append_drop], x1, x2⟩

end

theorem first_full : ∀ {bufs : List (List Byte)} {b : List Byte}, FirstFull bufs b →
    (bufs.find? (fun b => !b.isEmpty)).getD [] = b := by
  intro bufs b h
  induction h with
  | none => rfl
  | here full =>
    rename_i b rest
    cases b with
    | nil => exact absurd rfl full
    | cons x l => rfl
  | later before ih => simpa using ih

theorem first_len : ∀ {lens : List Nat} {n : Nat}, FirstLen lens n →
    (lens.find? (· != 0)).getD 0 = n := by
  intro lens n h
  induction h with
  | none => rfl
  | here full =>
    rename_i n rest
    simp [full]
  | later before ih => simpa using ih

end Vmap
