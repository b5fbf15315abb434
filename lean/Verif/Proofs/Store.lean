import Verif.Spec.Map
import Verif.Proofs.KernelWf
/- Helper lemmas: loads and stores through shared and private mappings. -/
namespace Vmap
namespace Kernel

/-- What a store leaves alone: everything but object contents and private copies. -/
structure StoreFx (k k' : Kernel) : Prop where
  page : k'.page = k.page
  size : k'.size = k.size
  disk : k'.disk = k.disk
  fds : k'.fds = k.fds
  names : k'.names = k.names
  nextFd : k'.nextFd = k.nextFd
  tick : k'.tick = k.tick
  log : k'.log = k.log
  oracle : k'.oracle = k.oracle
  fresh : k.fresh ≤ k'.fresh
  pt : ∀ q, k'.pt q = k.pt q ∨
    ∃ e c, k.pt q = some e ∧ e.shared = false ∧ k'.pt q = some { e with copy := some c }

theorem StoreFx.refl (k : Kernel) : StoreFx k k := by
  constructor <;> intros <;> first | rfl | exact .inl rfl | exact Nat.le_refl _

theorem StoreFx.trans {a b c : Kernel} (h : StoreFx a b) (h' : StoreFx b c) : StoreFx a c where
  page := h'.page.trans h.page
  size := h'.size.trans h.size
  disk := h'.disk.trans h.disk
  fds := h'.fds.trans h.fds
  names := h'.names.trans h.names
  nextFd := h'.nextFd.trans h.nextFd
  tick := h'.tick.trans h.tick
  log := h'.log.trans h.log
  oracle := h'.oracle.trans h.oracle
  fresh := Nat.le_trans h.fresh h'.fresh
  pt := fun q => by
    rcases h.pt q with h1 | ⟨e, x, h1, h2, h3⟩
    · rcases h'.pt q with g1 | ⟨e', x', g1, g2, g3⟩
      · exact .inl (g1.trans h1)
      · exact .inr ⟨e', x', by rw [← h1]; exact g1, g2, g3⟩
    · rcases h'.pt q with g1 | ⟨e', x', g1, g2, g3⟩
      · exact .inr ⟨e, x, h1, h2, g1.trans h3⟩
      · rw [h3] at g1
        injection g1 with g1
        subst g1
        exact .inr ⟨e, x', h1, h2, g3⟩

theorem StoreFx.maps {k k' : Kernel} (h : StoreFx k k') {a o j sh mw prot}
    (m : k.Maps a o j sh mw prot) : k'.Maps a o j sh mw prot := by
  obtain ⟨e, h1, h2, h3, h4, h5, h6, h7⟩ := m
  rcases h.pt (a / k.page) with g | ⟨e', c, g1, g2, g3⟩
  · refine ⟨e, by rw [h.page, g, h1], h2, by rw [h.page]; exact h3, h4, h5, h6, ?_⟩
    simpa [backed, h.page, h.size] using h7
  · rw [h1] at g1
    injection g1 with g1
    subst g1
    refine ⟨{ e with copy := some c }, by rw [h.page, g3], h2, by rw [h.page]; exact h3, h4, h5, h6, ?_⟩
    simpa [backed, h.page, h.size] using h7

theorem StoreFx.mapsAll {k k' : Kernel} (h : StoreFx k k') {p n o j sh mw prot}
    (m : k.MapsAll p n o j sh mw prot) : k'.MapsAll p n o j sh mw prot :=
  fun i hi => h.maps (m i hi)

/-- Loading through a shared page shows the object. -/
theorem Maps.load_shared {t : Target} {k : Kernel} (w : Wf t k) {a o j mw prot}
    (m : k.Maps a o j true mw prot) (hr : prot.r = true) : k.load a = .ok (k.data o j) := by
  obtain ⟨e, h1, h2, h3, h4, h5, h6, h7⟩ := m
  have hc := w.shared _ e h1 h4
  simp [Kernel.load, h1, h6, hr, h7, cell, hc, h2, h3]

/-- Loading through a page that has not been copied shows the object. -/
theorem Maps.load_fresh {k : Kernel} {a o j sh mw prot} {e : Pte}
    (he : k.pt (a / k.page) = some e) (hc : e.copy = none)
    (m : k.Maps a o j sh mw prot) (hr : prot.r = true) : k.load a = .ok (k.data o j) := by
  obtain ⟨e', h1, h2, h3, h4, h5, h6, h7⟩ := m
  rw [he] at h1
  injection h1 with h1
  subst h1
  simp [Kernel.load, he, h6, hr, h7, cell, hc, h2, h3]

/-- A readable page can be loaded from. -/
theorem Maps.load_ok {k : Kernel} {a o j sh mw prot}
    (m : k.Maps a o j sh mw prot) (hr : prot.r = true) : ∃ b, k.load a = .ok b := by
  obtain ⟨e, h1, h2, h3, h4, h5, h6, h7⟩ := m
  exact ⟨_, by simp [Kernel.load, h1, h6, hr, h7]; rfl⟩

/-- Nobody else can see object `o`: it is a private copy. -/
def IsCopy (k : Kernel) (o : Obj) : Prop := ∃ q e, k.pt q = some e ∧ e.copy = some o

/-- Storing to a shared page. -/
theorem Maps.store_shared {k : Kernel} {a o j mw prot}
    (m : k.Maps a o j true mw prot) (hw : prot.w = true) (b : Byte) :
    k.store a b = .ok (k.setByte o j b) := by
  obtain ⟨e, h1, h2, h3, h4, h5, h6, h7⟩ := m
  simp [Kernel.store, h1, h6, hw, h7, h4, h2, h3]

theorem StoreFx.setByte (k : Kernel) (o j b) : StoreFx k (k.setByte o j b) := by
  constructor <;> intros <;> first | rfl | exact .inl rfl | exact Nat.le_refl _

/-- What loads show after one byte of one object changed. -/
theorem load_setByte (k : Kernel) (o j : Nat) (b : Byte) (a : Nat) :
    (k.setByte o j b).load a =
      match k.pt (a / k.page) with
      | none => .error .memory
      | some e => if e.prot.r && k.backed e then
          (if k.cell e (a % k.page) = (o, j) then .ok b else k.load a) else .error .memory := by
  unfold Kernel.load
  simp only [Kernel.setByte]
  cases h : k.pt (a / k.page) with
  | none => rfl
  | some e =>
    simp only [backed]
    by_cases hc : (e.prot.r && decide (e.idx * k.page < k.size e.obj)) = true
    · simp only [hc, if_true]
      have : cell { k with data := fun o' i' => if o' = o ∧ i' = j then b else k.data o' i' } e
          (a % k.page) = k.cell e (a % k.page) := rfl
      rw [this]
      generalize k.cell e (a % k.page) = c
      by_cases h2 : c = (o, j)
      · subst h2; simp
      · rw [if_neg h2, if_neg]
        rintro ⟨rfl, rfl⟩
        exact h2 rfl
    · simp only [hc]; rfl

theorem load_eq {k k' : Kernel} (hp : k'.page = k.page) (hs : k'.size = k.size) {a : Nat}
    (hpt : k'.pt (a / k.page) = k.pt (a / k.page))
    (hd : ∀ e, k.pt (a / k.page) = some e →
      k'.data (k.cell e (a % k.page)).1 (k.cell e (a % k.page)).2 =
        k.data (k.cell e (a % k.page)).1 (k.cell e (a % k.page)).2) : k'.load a = k.load a := by
  unfold Kernel.load
  rw [hp, hpt]
  cases h : k.pt (a / k.page) with
  | none => rfl
  | some e =>
    have hb : k'.backed e = k.backed e := by simp [backed, hp, hs]
    have hcell : k'.cell e (a % k.page) = k.cell e (a % k.page) := by simp [cell, hp]
    simp only [hb, hcell]
    rw [hd e h]

/-- `a'` is a different address in the same page. -/
theorem mod_ne_of_div_eq {a a' p : Nat} (h : a' ≠ a) (hd : a' / p = a / p) :
    a' % p ≠ a % p := by
  intro hm
  have h1 := Nat.div_add_mod a p
  have h2 := Nat.div_add_mod a' p
  rw [hd, hm] at h2
  omega

theorem Wf.breakCow {t : Target} {k : Kernel} (w : Wf t k) {p : Nat} {e : Pte}
    (he : k.pt p = some e) (hs : e.shared = false) : Wf t (k.breakCow p e) := by
  have key : ∀ q e', (k.breakCow p e).pt q = some e' →
      (q = p ∧ e' = { e with copy := some k.fresh }) ∨ (q ≠ p ∧ k.pt q = some e') := by
    intro q e' h
    simp only [Kernel.breakCow] at h
    split at h
    · rename_i hq
      injection h with h
      exact .inl ⟨hq, h.symm⟩
    · rename_i hq; exact .inr ⟨hq, h⟩
  constructor
  · exact w.page
  · intro q e' h
    rcases key q e' h with ⟨rfl, rfl⟩ | ⟨-, h⟩
    · exact w.addr _ e he
    · exact w.addr q e' h
  · intro q e' h
    simp only [Kernel.breakCow]
    rcases key q e' h with ⟨rfl, rfl⟩ | ⟨-, h⟩
    · refine ⟨Nat.lt_succ_of_lt (w.objs _ e he).1, ?_⟩
      intro c hc
      injection hc with hc
      omega
    · refine ⟨Nat.lt_succ_of_lt (w.objs q e' h).1, ?_⟩
      intro c hc
      exact Nat.lt_succ_of_lt ((w.objs q e' h).2 c hc)
  · intro d f h
    have := w.fds d f h
    exact ⟨Nat.lt_succ_of_lt this.1, this.2⟩
  · intro n o h
    exact Nat.lt_succ_of_lt (w.names n o h)
  · intro q e' c h hc
    rcases key q e' h with ⟨rfl, rfl⟩ | ⟨hq, h⟩
    · injection hc with hc
      subst hc
      refine ⟨?_, ?_, ?_⟩
      · intro q' e'' h'
        rcases key q' e'' h' with ⟨rfl, rfl⟩ | ⟨hq', h'⟩
        · exact ⟨by have := (w.objs _ e he).1; dsimp only; omega, fun _ => rfl⟩
        · refine ⟨by have := (w.objs q' e'' h').1; omega, ?_⟩
          intro hc
          have := (w.objs q' e'' h').2 _ hc
          omega
      · intro d f hd
        have := (w.fds d f hd).1
        omega
      · intro n o hn
        have := w.names n o hn
        omega
    · obtain ⟨x1, x2, x3⟩ := w.excl q e' c h hc
      have hlt := (w.objs q e' h).2 c hc
      refine ⟨?_, x2, x3⟩
      intro q' e'' h'
      rcases key q' e'' h' with ⟨rfl, rfl⟩ | ⟨hq', h'⟩
      · refine ⟨(x1 _ e he).1, ?_⟩
        intro hc'
        injection hc' with hc'
        omega
      · exact x1 q' e'' h'
  · intro q e' h hsh
    rcases key q e' h with ⟨rfl, rfl⟩ | ⟨-, h⟩
    · simp [hs] at hsh
    · exact w.shared q e' h hsh

theorem Wf.setByte {t : Target} {k : Kernel} (w : Wf t k) (o j b) : Wf t (k.setByte o j b) :=
  w.sub rfl (fun _ _ h => h) (fun _ _ h => h) (fun _ _ h => h) (Nat.le_refl _) (Nat.le_refl _)

/-- Storing to a private page: only this address changes, and no object that anything else
can see. -/
theorem Maps.store_private {t : Target} {k : Kernel} (w : Wf t k) {a o j mw prot}
    (m : k.Maps a o j false mw prot) (hw : prot.w = true) (b : Byte) :
    ∃ k', k.store a b = .ok k' ∧ Wf t k' ∧ StoreFx k k' ∧
      (prot.r = true → k'.load a = .ok b) ∧
      (∀ a', a' ≠ a → k'.load a' = k.load a') ∧
      (∀ o', o' < k.fresh → ¬ k.IsCopy o' → k'.data o' = k.data o' ∧ ¬ k'.IsCopy o') := by
  obtain ⟨e, h1, h2, h3, h4, h5, h6, h7⟩ := m
  cases hc : e.copy with
  | some c =>
    refine ⟨k.setByte c (a % k.page) b, ?_, w.setByte _ _ _, StoreFx.setByte _ _ _ _, ?_, ?_, ?_⟩
    · simp [Kernel.store, h1, h6, hw, h7, h4, hc]
    · intro hr
      rw [load_setByte, h1]
      simp [h6, hr, h7, cell, hc]
    · intro a' ha
      rw [load_setByte]
      cases h : k.pt (a' / k.page) with
      | none => simp [Kernel.load, h]
      | some e' =>
        simp only
        by_cases hb : (e'.prot.r && k.backed e') = true
        · rw [if_pos hb, if_neg]
          intro hcell
          obtain ⟨x1, -, -⟩ := w.excl _ e c h1 hc
          have hx := x1 _ e' h
          unfold cell at hcell
          cases hc' : e'.copy with
          | none =>
            rw [hc'] at hcell
            injection hcell with g1 g2
            exact hx.1 g1
          | some c' =>
            rw [hc'] at hcell
            injection hcell with g1 g2
            subst g1
            exact mod_ne_of_div_eq ha (hx.2 hc') g2
        · rw [if_neg hb]
          simp only [Kernel.load, h]
          rw [if_neg hb]
    · intro o' _ ho'
      refine ⟨?_, ho'⟩
      have : o' ≠ c := by
        rintro rfl
        exact ho' ⟨_, e, h1, hc⟩
      funext x
      simp [Kernel.setByte, this]
  | none =>
    have w1 := w.breakCow h1 h4
    have hpt1 : (k.breakCow (a / k.page) e).pt (a / k.page) =
        some { e with copy := some k.fresh } := by simp [Kernel.breakCow]
    refine ⟨(k.breakCow (a / k.page) e).setByte k.fresh (a % k.page) b, ?_, w1.setByte _ _ _,
      ?_, ?_, ?_, ?_⟩
    · simp [Kernel.store, h1, h6, hw, h7, h4, hc]
    · constructor <;> try rfl
      · simp [Kernel.setByte, Kernel.breakCow]
      · intro q
        by_cases hq : q = a / k.page
        · subst hq
          exact .inr ⟨e, k.fresh, h1, h4, hpt1⟩
        · exact .inl (by simp [Kernel.setByte, Kernel.breakCow, hq])
    · intro hr
      rw [load_setByte]
      have hp : (k.breakCow (a / k.page) e).page = k.page := rfl
      rw [hp, hpt1]
      have hb : (k.breakCow (a / k.page) e).backed { e with copy := some k.fresh } = true := h7
      simp only [hb, Bool.and_true, cell]
      rw [if_pos (by rw [h6]; exact hr), if_pos trivial]
    · intro a' ha
      rw [load_setByte]
      have hp : (k.breakCow (a / k.page) e).page = k.page := rfl
      rw [hp]
      by_cases hq : a' / k.page = a / k.page
      · rw [hq, hpt1]
        have hb : (k.breakCow (a / k.page) e).backed { e with copy := some k.fresh } = true := h7
        have hm := mod_ne_of_div_eq ha hq
        simp only [hb, Bool.and_true, cell, Prod.mk.injEq, true_and]
        rw [if_neg hm]
        simp only [Kernel.load, hp]
        rw [hq, hpt1, h1]
        simp only [hb, h7, Bool.and_true, cell, hc]
        by_cases hr : e.prot.r = true
        · simp [hr, Kernel.breakCow]
        · simp [hr]
      · have hpt2 : (k.breakCow (a / k.page) e).pt (a' / k.page) = k.pt (a' / k.page) := by
          simp [Kernel.breakCow, hq]
        rw [hpt2]
        cases h : k.pt (a' / k.page) with
        | none => simp [Kernel.load, h]
        | some e' =>
          simp only
          have hb' : (k.breakCow (a / k.page) e).backed e' = k.backed e' := rfl
          have hc' : (k.breakCow (a / k.page) e).cell e' (a' % k.page) = k.cell e' (a' % k.page) :=
            rfl
          have hlt : (k.cell e' (a' % k.page)).1 < k.fresh := by
            have := w.objs _ e' h
            unfold cell
            cases hcc : e'.copy with
            | none => exact this.1
            | some c => exact this.2 c hcc
          by_cases hb : (e'.prot.r && k.backed e') = true
          · rw [hb', hb, if_pos rfl, hc', if_neg]
            · refine load_eq (k := k) (k' := k.breakCow (a / k.page) e) rfl rfl hpt2 ?_
              intro e'' h''
              rw [h] at h''
              injection h'' with h''
              subst h''
              simp only [Kernel.breakCow]
              rw [if_neg (by omega)]
            · intro hx
              rw [hx] at hlt
              simp at hlt
          · rw [hb', if_neg hb]
            simp only [Kernel.load, h]
            rw [if_neg hb]
    · intro o' ho ho'
      constructor
      · funext x
        simp only [Kernel.setByte, Kernel.breakCow]
        rw [if_neg (by omega), if_neg (by omega)]
      · rintro ⟨q, e', g1, g2⟩
        simp only [Kernel.setByte, Kernel.breakCow] at g1
        split at g1
        · injection g1 with g1
          subst g1
          injection g2 with g2
          omega
        · exact ho' ⟨q, e', g1, g2⟩

/-- What storing the bytes `bs` at index `i` of a mapped range does. -/
structure Stored (t : Target) (k k' : Kernel) (ptr len : Nat) (o : Obj) (off : Nat)
    (sh mw : Bool) (prot : Prot) (i : Nat) (bs : List Byte) : Prop where
  wf : Wf t k'
  fx : StoreFx k k'
  maps : k'.MapsAll ptr len o off sh mw prot
  load : ∀ j, j < len → k'.load (ptr + j) =
    if i ≤ j ∧ j < i + bs.length then .ok (bs.getD (j - i) 0) else k.load (ptr + j)
  shared : sh = true → k'.pt = k.pt ∧ k'.fresh = k.fresh ∧ (∀ o', o' ≠ o → k'.data o' = k.data o') ∧
    ∀ x, k'.data o x = if off + i ≤ x ∧ x < off + i + bs.length
      then bs.getD (x - (off + i)) 0 else k.data o x
  priv : sh = false →
    (∀ a, ¬ (ptr + i ≤ a ∧ a < ptr + i + bs.length) → k'.load a = k.load a) ∧
    ∀ o', o' < k.fresh → ¬ k.IsCopy o' → k'.data o' = k.data o' ∧ ¬ k'.IsCopy o'

theorem store_maps {t : Target} {k : Kernel} (w : Wf t k) {ptr len o off sh mw prot}
    (m : k.MapsAll ptr len o off sh mw prot) (hr : prot.r = true) (hw : prot.w = true)
    {i : Nat} (hi : i < len) (b : Byte) :
    ∃ k', k.store (ptr + i) b = .ok k' ∧ Stored t k k' ptr len o off sh mw prot i [b] := by
  have one : ∀ j, (i ≤ j ∧ j < i + [b].length) ↔ j = i := by
    intro j; simp only [List.length_singleton]; omega
  cases sh with
  | true =>
    have s := StoreFx.setByte k o (off + i) b
    refine ⟨_, (m i hi).store_shared hw b, w.setByte _ _ _, s, s.mapsAll m, ?_, ?_,
      fun h => by cases h⟩
    · intro j hj
      rw [Maps.load_shared (w.setByte _ _ _) (s.maps (m j hj)) hr, (m j hj).load_shared w hr]
      by_cases h : j = i
      · subst h; simp [Kernel.setByte]
      · rw [if_neg (by rw [one]; exact h)]
        simp only [Kernel.setByte]
        rw [if_neg (by omega)]
    · intro _
      refine ⟨rfl, rfl, ?_, ?_⟩
      · intro o' ho'; funext x; simp [Kernel.setByte, ho']
      · intro x
        by_cases h : x = off + i
        · subst h; simp [Kernel.setByte]
        · rw [if_neg (by simp only [List.length_singleton]; omega)]
          simp [Kernel.setByte, h]
  | false =>
    obtain ⟨k', h1, h2, h3, h4, h5, h6⟩ := (m i hi).store_private w hw b
    refine ⟨k', h1, h2, h3, h3.mapsAll m, ?_, (fun h => by cases h), ?_⟩
    · intro j hj
      by_cases h : j = i
      · subst h; rw [if_pos ((one _).mpr rfl), h4 hr]; simp
      · rw [if_neg (by rw [one]; exact h)]
        exact h5 _ (by omega)
    · intro _
      refine ⟨?_, h6⟩
      intro a ha
      exact h5 a (by simp only [List.length_singleton] at ha; omega)

theorem storeN_maps {t : Target} {ptr len o off sh mw prot} :
    ∀ (bs : List Byte) (k : Kernel) (i : Nat), Wf t k →
      k.MapsAll ptr len o off sh mw prot → prot.r = true → prot.w = true →
      i + bs.length ≤ len →
      ∃ k', k.storeN (ptr + i) bs = .ok k' ∧ Stored t k k' ptr len o off sh mw prot i bs
  | [], k, i, w, m, _, _, _ => by
    refine ⟨k, rfl, w, StoreFx.refl k, m, ?_, ?_, ?_⟩
    · intro j _; rw [if_neg (by simp only [List.length_nil]; omega)]
    · intro _
      exact ⟨rfl, rfl, fun _ _ => rfl, fun x => by rw [if_neg (by simp only [List.length_nil]; omega)]⟩
    · intro _; exact ⟨fun _ _ => rfl, fun _ _ h => ⟨rfl, h⟩⟩
  | b :: bs, k, i, w, m, hr, hw, hi => by
    simp only [List.length_cons] at hi
    obtain ⟨k1, e1, s1⟩ := store_maps w m hr hw (i := i) (by omega) b
    obtain ⟨k', e2, s2⟩ := storeN_maps bs k1 (i + 1) s1.wf s1.maps hr hw (by omega)
    refine ⟨k', ?_, s2.wf, s1.fx.trans s2.fx, s2.maps, ?_, ?_, ?_⟩
    · simp only [storeN, e1, bind, Except.bind]
      exact e2
    · intro j hj
      rw [s2.load j hj, s1.load j hj]
      simp only [List.length_cons, List.length_nil, Nat.zero_add]
      by_cases h1 : i + 1 ≤ j ∧ j < i + 1 + bs.length
      · rw [if_pos h1, if_pos (by omega)]
        rw [show j - i = (j - (i + 1)) + 1 by omega, List.getD_cons_succ]
      · rw [if_neg h1]
        by_cases h2 : i ≤ j ∧ j < i + 1
        · rw [if_pos h2, if_pos (by omega), show j - i = 0 by omega]; rfl
        · rw [if_neg h2, if_neg (by omega)]
    · intro hs
      obtain ⟨a1, a2, a3, a4⟩ := s1.shared hs
      obtain ⟨b1, b2, b3, b4⟩ := s2.shared hs
      refine ⟨b1.trans a1, b2.trans a2, fun o' ho => (b3 o' ho).trans (a3 o' ho), ?_⟩
      intro x
      rw [b4 x, a4 x]
      simp only [List.length_cons, List.length_nil, Nat.zero_add]
      by_cases h1 : off + (i + 1) ≤ x ∧ x < off + (i + 1) + bs.length
      · rw [if_pos h1, if_pos (by omega)]
        rw [show x - (off + i) = (x - (off + (i + 1))) + 1 by omega, List.getD_cons_succ]
      · rw [if_neg h1]
        by_cases h2 : off + i ≤ x ∧ x < off + i + 1
        · rw [if_pos h2, if_pos (by omega), show x - (off + i) = 0 by omega]; rfl
        · rw [if_neg h2, if_neg (by omega)]
    · intro hs
      obtain ⟨a1, a2⟩ := s1.priv hs
      obtain ⟨b1, b2⟩ := s2.priv hs
      refine ⟨?_, ?_⟩
      · intro a ha
        simp only [List.length_cons] at ha
        rw [b1 a (by omega), a1 a (by simp only [List.length_singleton]; omega)]
      · intro o' ho hc
        obtain ⟨c1, c2⟩ := a2 o' ho hc
        obtain ⟨d1, d2⟩ := b2 o' (Nat.lt_of_lt_of_le ho s1.fx.fresh) c2
        exact ⟨d1.trans c1, d2⟩

/-- Loading a mapped range never faults. -/
theorem loadN_maps {k : Kernel} : ∀ (n a : Nat),
    (∀ i, i < n → ∃ b, k.load (a + i) = .ok b) →
    ∃ bs, k.loadN a n = .ok bs ∧ bs.length = n ∧
      ∀ i, i < n → k.load (a + i) = .ok (bs.getD i 0)
  | 0, a, _ => ⟨[], rfl, rfl, fun i h => by omega⟩
  | n + 1, a, h => by
    obtain ⟨b, hb⟩ := h 0 (by omega)
    obtain ⟨bs, h1, h2, h3⟩ := loadN_maps n (a + 1) (fun i hi => by
      rw [show a + 1 + i = a + (i + 1) by omega]; exact h (i + 1) (by omega))
    rw [Nat.add_zero] at hb
    refine ⟨b :: bs, by simp only [loadN, hb, h1, bind, Except.bind]; rfl, by simp [h2], ?_⟩
    intro i hi
    cases i with
    | zero => simpa using hb
    | succ i =>
      rw [show a + (i + 1) = a + 1 + i by omega, h3 i (by omega), List.getD_cons_succ]

/-- Bytes are determined by the loads. -/
theorem loadN_eq {k : Kernel} : ∀ (bs : List Byte) (a : Nat),
    (∀ i, i < bs.length → k.load (a + i) = .ok (bs.getD i 0)) → k.loadN a bs.length = .ok bs
  | [], _, _ => rfl
  | b :: bs, a, h => by
    have h0 := h 0 (by simp)
    rw [Nat.add_zero] at h0
    have := loadN_eq bs (a + 1) (fun i hi => by
      have := h (i + 1) (by simpa using hi)
      rw [show a + 1 + i = a + (i + 1) by omega, this, List.getD_cons_succ])
    simp only [List.length_cons, loadN, h0, this, bind, Except.bind]
    rfl

end Kernel
end Vmap
