import Verif.Model.WinSpan
import Verif.Spec.WinSpan
import Verif.Proofs.WinMapTests
/- Helper lemmas for C166. -/
namespace Vmap
open Spec

variable {t : Target}

theorem win_look_base {s : Vmap.Win} {a : Nat} {v : WinView} (h : s.look a = some v) :
    v.base ≤ a ∧ a < v.base + v.len := by
  unfold Win.look at h
  have := List.find?_some h
  simpa only [decide_eq_true_eq] using this

/-- A byte is written through to a section of which there are no copies. -/
theorem win_through_store {s : Vmap.Win} {v : WinView} {a : Nat} {c : Byte} (look : s.look a = some v)
    (wr : v.access.write = true) (own : ∀ a, s.bytes.own v.sec.id a = none) (load : s.load a = .ok c) (b : Byte) :
    ∃ by', s.store a b = .ok { s with bytes := by' } ∧ (∀ a, by'.own v.sec.id a = none) ∧
      ∀ a' x, s.look a' = some v → s.load a' = .ok x →
        Win.load { s with bytes := by' } a' = .ok (if a' = a then b else x) := by
  have hb := win_look_base look
  have hlost : s.lost v.sec (v.off + (a - v.base)) = false := by
    unfold Win.load at load
    simp only [look, own] at load
    cases h : s.lost v.sec (v.off + (a - v.base)) with
    | false => rfl
    | true => simp [h] at load
  have after : ∀ (y : WinBytes), (∀ a, y.own v.sec.id a = none) →
      (∀ j, y.shown v.sec j = if j = v.off + (a - v.base) then b else s.bytes.shown v.sec j) →
      ∀ a' x, s.look a' = some v → s.load a' = .ok x →
        Win.load { s with bytes := y } a' = .ok (if a' = a then b else x) := by
    intro y ho hs a' x look' load'
    have hb' := win_look_base look'
    have same : Win.look { s with bytes := y } a' = some v := look'
    have sameLost : ∀ j, Win.lost { s with bytes := y } v.sec j = s.lost v.sec j := fun _ => rfl
    unfold Win.load at load' ⊢
    simp only [look', own] at load'
    simp only [same, ho, sameLost]
    split at load'
    · rename_i hc
      rw [if_pos hc, hs]
      injection load' with load'
      by_cases ha : a' = a
      · subst ha; rw [if_pos rfl, if_pos rfl]
      · rw [if_neg ha, if_neg (by omega), load']
    · cases load'
  unfold Win.store
  simp only [look, wr, hlost, if_true, Bool.false_eq_true, if_false]
  cases hf : v.sec.file with
  | none =>
    refine ⟨_, rfl, own, after _ own fun j => ?_⟩
    simp only [WinBytes.shown, hf, true_and]
  | some f =>
    refine ⟨_, rfl, own, after _ own fun j => ?_⟩
    simp only [WinBytes.shown, hf, true_and]

/-- Some bytes are written. -/
theorem Spec.WinWritable.storeN {v : WinView} : ∀ (new : List Byte) {s : Vmap.Win} {ptr len : Nat}
    (_ : WinWritable s ptr len v) {i : Nat} (_ : i + new.length ≤ len),
    ∃ by', WinDocMap.storeN s (ptr + i) new = .ok { s with bytes := by' } ∧
      WinWritable { s with bytes := by' } ptr len v ∧
      ∀ j, j < len → Win.load { s with bytes := by' } (ptr + j) =
        if i ≤ j ∧ j < i + new.length then .ok (new.getD (j - i) 0) else s.load (ptr + j)
  | [], s, ptr, len, w, i, _ => ⟨s.bytes, rfl, w, fun j _ => by rw [if_neg (by simp)]⟩
  | b :: bs, s, ptr, len, w, i, hi => by
    rw [List.length_cons] at hi
    obtain ⟨c, hc⟩ := w.loads i (by omega)
    have one : ∃ y, s.store (ptr + i) b = .ok { s with bytes := y } ∧ WinWritable { s with bytes := y } ptr len v ∧
        ∀ j, j < len → Win.load { s with bytes := y } (ptr + j) = if j = i then .ok b else s.load (ptr + j) := by
      have key : ∃ y, s.store (ptr + i) b = .ok { s with bytes := y } ∧
          ((v.access.write = true ∧ ∀ a, y.own v.sec.id a = none) ∨ (v.access.write = false ∧ v.access.copy = true)) ∧
          ∀ a' x, s.look a' = some v → s.load a' = .ok x →
            Win.load { s with bytes := y } a' = .ok (if a' = ptr + i then b else x) := by
        rcases w.can with ⟨wr, own⟩ | ⟨nw, cp⟩
        · obtain ⟨y, e, o, h⟩ := win_through_store (w.look i (by omega)) wr own hc b
          exact ⟨y, e, .inl ⟨wr, o⟩, h⟩
        · obtain ⟨y, e, h⟩ := win_copy_store (w.look i (by omega)) cp nw hc b
          exact ⟨y, e, .inr ⟨nw, cp⟩, h⟩
      obtain ⟨y, e, can, h⟩ := key
      refine ⟨y, e, ⟨w.look, can, fun j hj => ?_⟩, fun j hj => ?_⟩
      · obtain ⟨x, hx⟩ := w.loads j hj
        exact ⟨_, h _ _ (w.look j hj) hx⟩
      · obtain ⟨x, hx⟩ := w.loads j hj
        rw [h _ _ (w.look j hj) hx, hx]
        by_cases hji : j = i
        · subst hji; rw [if_pos rfl, if_pos rfl]
        · rw [if_neg hji, if_neg (by omega)]
    obtain ⟨y, e, w1, h1⟩ := one
    obtain ⟨z, e', w2, h2⟩ := WinWritable.storeN bs w1 (i := i + 1) (by omega)
    refine ⟨z, by simp only [WinDocMap.storeN, bind, Except.bind, e]; exact e', w2, fun j hj => ?_⟩
    rw [h2 j hj, h1 j hj, List.length_cons]
    by_cases hx : i + 1 ≤ j ∧ j < i + 1 + bs.length
    · rw [if_pos hx, if_pos (by omega)]
      have : j - i = (j - (i + 1)) + 1 := by omega
      rw [this]; rfl
    · rw [if_neg hx]
      by_cases hji : j = i
      · rw [if_pos hji, if_pos (by omega), hji, Nat.sub_self]; rfl
      · rw [if_neg hji, if_neg (by omega)]

theorem win_loadN_some {s : Vmap.Win} : ∀ (n a : Nat), (∀ i, i < n → ∃ b, s.load (a + i) = .ok b) →
    ∃ bs, WinDocMap.loadN s a n = .ok bs
  | 0, a, _ => ⟨[], rfl⟩
  | n + 1, a, h => by
    obtain ⟨b, hb⟩ := h 0 (by omega)
    obtain ⟨bs, hbs⟩ := win_loadN_some n (a + 1) (fun i hi => by
      have := h (i + 1) (by omega)
      rwa [Nat.add_assoc, Nat.add_comm 1 i])
    rw [Nat.add_zero] at hb
    exact ⟨b :: bs, by simp only [WinDocMap.loadN, bind, Except.bind, hb, hbs]; rfl⟩

theorem WinSeen.writable {k : WinFs} (g : WinGood t k) {m v off w} (s : WinSeen k.win m v off w) {text : List Byte}
    (tx : WinBears k.win v.sec text) (hl : off + m.len ≤ text.length)
    (can : v.access.write = true ∨ v.access.copy = true) : WinWritable k.win m.ptr m.len v := by
  obtain ⟨m1, m2, m3, m4⟩ := s.mv
  refine ⟨fun i hi => g.laid.look s.mem ⟨by omega, by omega⟩, ?_, fun i hi => ⟨_, s.load g tx hi (by omega)⟩⟩
  cases h : v.access.write with
  | true => exact .inl ⟨rfl, s.own⟩
  | false => exact .inr ⟨rfl, can.resolve_left (by rw [h]; simp)⟩

end Vmap
