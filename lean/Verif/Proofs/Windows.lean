import Verif.Spec.Windows
import Verif.Proofs.Size
/- Helper lemmas about the Windows layer. -/
namespace Vmap
open Spec

theorem mulU_ok {t : Target} {a b : Nat} (h : a * b < t.lim) : mulU t a b = .ok (a * b) := by
  simp [mulU, mulL, h]

theorem ptrAdd_ok {t : Target} {a b : Nat} (h : a + b < t.lim) : ptrAdd t a b = a + b :=
  Nat.mod_eq_of_lt h

namespace Win

theorem bits16 (t : Target) : 16 < t.width.bits := by
  rcases t with ⟨w, c⟩; cases w <;> simp [Width.bits]

/-- The high half. -/
theorem hi32_eq {t : Target} {x : Nat} (h : x < t.lim) : hi32 t x = .ok (x / 2 ^ 32) := by
  have hl := t.lim_le_64
  unfold lim64 at hl
  simp only [hi32, shrU, if_pos (bits16 t), bind, Except.bind, pure, Except.pure, asU32,
    Nat.shiftRight_eq_div_pow, Nat.div_div_eq_div_mul]
  congr 1
  omega

/-- The low half. -/
theorem lo32_eq (x : Nat) : lo32 x = x % 2 ^ 32 := by
  have : x &&& 0xffffffff = x % 2 ^ 32 := Nat.and_two_pow_sub_one_eq_mod x 32
  rw [lo32, asU32, this, Nat.mod_mod]

theorem halves (x : Nat) : x / 2 ^ 32 * 2 ^ 32 + x % 2 ^ 32 = x := by
  have := Nat.div_add_mod x (2 ^ 32)
  omega

/-- What `MapHandle::new` does. -/
theorem handleNew_cases {t : Target} (s : Win) (op : Operation) (file : Option Nat) (prot : WinProt)
    {len : Nat} (hl : len < t.lim) :
    (∃ e, s.handleNew t op file prot len =
      .ok (s.did (.createFileMapping file prot (len / 2 ^ 32) (len % 2 ^ 32)),
        .error (Error.lastOsError op e))) ∨
    (∃ size, size ≠ 0 ∧ (file = none → size = len) ∧
      (∀ f, file = some f → ∃ n, s.files f = some n ∧ (len = 0 → size = n)) ∧
      s.handleNew t op file prot len =
      .ok ({ s.did (.createFileMapping file prot (len / 2 ^ 32) (len % 2 ^ 32)) with
        handles := fun h => if h = s.next then some ⟨s.next, file, prot, size⟩ else s.handles h
        next := s.next + 1
        bytes := s.bytes.newSection s.next }, .ok s.next)) := by
  simp only [handleNew, hi32_eq hl, lo32_eq, bind, Except.bind, createFileMapping, halves]
  generalize hsz : s.sectionSize file len = size
  by_cases h : s.choice.ok = true ∧ size ≠ 0
  · rw [if_pos h]
    refine .inr ⟨size, h.2, ?_, ?_, rfl⟩
    · intro hf; subst hf; rw [sectionSize] at hsz; exact hsz.symm
    · intro f hf
      subst hf
      cases hn : s.files f with
      | none =>
        simp only [sectionSize, hn] at hsz
        exact absurd hsz.symm h.2
      | some n =>
        refine ⟨n, rfl, fun h0 => ?_⟩
        simp only [sectionSize, hn] at hsz
        rw [← hsz, if_pos h0]
  · rw [if_neg h]
    exact .inl ⟨_, rfl⟩

/-- What `MapHandle::view` does. -/
theorem view_cases {t : Target} (s : Win) {h : Nat} {sec : Section} (hs : s.handles h = some sec)
    (op : Operation) (access : WinAccess) {off : Nat} (len at' : Nat) (ho : off < t.lim) :
    (∃ e, s.view t h op access off len at' =
      .ok (s.did (.mapViewOfFileEx h access (off / 2 ^ 32) (off % 2 ^ 32) len at'),
        .error (Error.lastOsError op e))) ∨
    (∃ base n, n ≠ 0 ∧ n = (if len = 0 then sec.size - off else len) ∧ (at' ≠ 0 → base = at') ∧
      off % s.gran = 0 ∧
      off + n ≤ sec.size ∧ base ≠ 0 ∧ base % s.gran = 0 ∧ base + s.roundPage n < t.lim ∧
      s.free base n = true ∧ permits sec.prot access = true ∧
      s.view t h op access off len at' =
      .ok ({ s.did (.mapViewOfFileEx h access (off / 2 ^ 32) (off % 2 ^ 32) len at') with
        views := ⟨base, n, sec, off, access⟩ :: s.views }, .ok base)) := by
  simp only [view, hi32_eq ho, lo32_eq, bind, Except.bind, mapViewOfFileEx, halves, hs]
  generalize hn : (if len = 0 then sec.size - off else len) = n
  generalize hb : (if at' = 0 then s.choice.addr else at') = base
  by_cases hc : s.choice.ok = true ∧ off % s.gran = 0 ∧ n ≠ 0 ∧ off + n ≤ sec.size ∧ base ≠ 0 ∧
      base % s.gran = 0 ∧ base + s.roundPage n < t.lim ∧ s.free base n = true ∧
      permits sec.prot access = true
  · rw [if_pos hc]
    obtain ⟨-, h2, h3, h4, h5, h6, h7, h8, h9⟩ := hc
    exact .inr ⟨base, n, h3, rfl, fun ha => by rw [← hb, if_neg ha], h2, h4, h5, h6, h7, h8, h9, rfl⟩
  · rw [if_neg hc]
    exact .inl ⟨_, rfl⟩

theorem roundPage_le (s : Win) (hp : 0 < s.page) (n : Nat) : n ≤ s.roundPage n :=
  (isRoundUp_div (len := n) hp).2.1

theorem roundPage_dvd (s : Win) (hp : 0 < s.page) {n : Nat} (h : s.page ∣ n) : s.roundPage n = n :=
  IsRoundUp.unique (isRoundUp_div hp) ⟨h, Nat.le_refl _, fun _ _ h => h⟩

theorem _root_.Vmap.Spec.WinWf.page_pos {t : Target} {s : Win} (w : WinWf t s) : 0 < s.page := by
  obtain ⟨a, b, h, -⟩ := w.sizes
  rw [h]; exact Nat.two_pow_pos a

theorem _root_.Vmap.Spec.WinWf.gran_pos {t : Target} {s : Win} (w : WinWf t s) : 0 < s.gran := by
  obtain ⟨a, b, -, h, -⟩ := w.sizes
  rw [h]; exact Nat.two_pow_pos b

theorem _root_.Vmap.Spec.WinWf.page_dvd {t : Target} {s : Win} (w : WinWf t s) : s.page ∣ s.gran := by
  obtain ⟨a, b, h1, h2, h3, -⟩ := w.sizes
  rw [h1, h2]; exact Nat.pow_dvd_pow 2 h3

/-- A free range meets no view. -/
theorem free_views {s : Win} (hp : 0 < s.page) {a n : Nat} (h : s.free a n = true) {v : WinView}
    (hv : v ∈ s.views) : a + n ≤ v.base ∨ v.base + v.len ≤ a := by
  rw [free, Bool.and_eq_true] at h
  have h1 := of_decide_eq_true (List.all_eq_true.mp h.1 v hv)
  have := s.roundPage_le hp n
  have := s.roundPage_le hp v.len
  omega

theorem free_reserved {s : Win} (hp : 0 < s.page) {a n : Nat} (h : s.free a n = true) {r : Nat × Nat}
    (hv : r ∈ s.reserved) : a + n ≤ r.1 ∨ r.1 + r.2 ≤ a := by
  rw [free, Bool.and_eq_true] at h
  have h1 := of_decide_eq_true (List.all_eq_true.mp h.2 r hv)
  have := s.roundPage_le hp n
  have := s.roundPage_le hp r.2
  omega

/-- What `reserve` does: nothing stays reserved. -/
theorem reserve_cases {t : Target} {s : Win} (w : WinWf t s) {len : Nat} (hl : 0 < len) :
    (∃ e, s.reserve t len = (s.did (.virtualAlloc len), .error (Error.lastOsError .ringAllocate e))) ∨
    (∃ pg, pg ≠ 0 ∧ pg + len < t.lim ∧ s.reserve t len =
      ((s.did (.virtualAlloc len)).did (.virtualFree pg), .ok pg)) := by
  simp only [reserve, virtualAlloc]
  by_cases h : s.choice.ok = true ∧ s.choice.addr ≠ 0 ∧ s.choice.addr % s.gran = 0 ∧
      s.choice.addr + s.roundPage len < t.lim ∧ s.free s.choice.addr len = true
  · rw [if_pos h]
    obtain ⟨-, h2, -, h3, h4⟩ := h
    have := s.roundPage_le w.page_pos len
    refine .inr ⟨_, h2, by omega, ?_⟩
    simp only [virtualFree, did]
    congr 2
    rw [List.filter_cons, if_neg (by simp)]
    rw [List.filter_eq_self]
    intro r hr
    have := free_reserved w.page_pos h4 hr
    have := w.reserved r hr
    exact decide_eq_true (by omega)
  · rw [if_neg h]
    exact .inl ⟨_, rfl⟩

/-- The pages of a range are the pages of its bytes. -/
theorem mem_pagesOf {s : Win} {a l q : Nat} : q ∈ s.pagesOf a l ↔ ∃ x, a ≤ x ∧ x < a + l ∧ x / s.page = q := by
  unfold pagesOf
  by_cases hl : l = 0
  · rw [if_pos hl]
    exact ⟨fun h => (nomatch h), fun ⟨x, h1, h2, _⟩ => by omega⟩
  · rw [if_neg hl, List.mem_range'_1]
    have hle : a / s.page ≤ (a + l - 1) / s.page := Nat.div_le_div_right (by omega)
    constructor
    · rintro ⟨h1, h2⟩
      rcases Nat.eq_or_lt_of_le h1 with h1 | h1
      · exact ⟨a, Nat.le_refl _, by omega, h1⟩
      · have hp : 0 < s.page := by
          rcases Nat.eq_zero_or_pos s.page with h | h
          · simp only [h, Nat.div_zero] at h1 h2; omega
          · exact h
        have := (Nat.div_lt_iff_lt_mul hp).mp h1
        have := (Nat.le_div_iff_mul_le hp).mp (show q ≤ (a + l - 1) / s.page by omega)
        exact ⟨q * s.page, by omega, by omega, Nat.mul_div_cancel _ hp⟩
    · rintro ⟨x, h1, h2, rfl⟩
      have := Nat.div_le_div_right (c := s.page) h1
      have := Nat.div_le_div_right (c := s.page) (show x ≤ a + l - 1 by omega)
      omega

theorem all_pagesOf {s : Win} {a l : Nat} {f : Nat → Bool} :
    (s.pagesOf a l).all f = true ↔ ∀ x, a ≤ x → x < a + l → f (x / s.page) = true := by
  rw [List.all_eq_true]
  constructor
  · intro h x h1 h2
    exact h _ (mem_pagesOf.mpr ⟨x, h1, h2, rfl⟩)
  · intro h q hq
    obtain ⟨x, h1, h2, rfl⟩ := mem_pagesOf.mp hq
    exact h x h1 h2

theorem onPage_iff_of {u : Nat} {v : WinView} {x : Nat} : v.onPage u (x / u) = true ↔ WinPageOf u v x :=
  decide_eq_true_iff

/-- Unmapping the view that was added last removes exactly that one. -/
theorem unmap_last {s : Win} {v : WinView} {vs : List WinView} (hv : s.views = v :: vs)
    (h : ∀ x, x ∈ vs → x.base ≠ v.base) :
    s.unmapViewOfFile v.base = ({ s.did (.unmapViewOfFile v.base) with
      views := vs, locked := fun q => s.locked q && !v.onPage s.page q }, .ok ()) := by
  simp only [unmapViewOfFile, hv]
  rw [if_pos (by simp)]
  congr 2
  · rw [List.filter_cons, if_neg (by simp), List.filter_eq_self]
    intro x hx
    exact decide_eq_true (h x hx)
  · funext q
    congr 2
    rw [List.any_cons, decide_eq_true rfl, Bool.true_and]
    have : vs.any (fun x => decide (x.base = v.base) && x.onPage s.page q) = false := by
      rw [List.any_eq_false]
      intro x hx
      rw [decide_eq_false (h x hx)]
      simp
    rw [this, Bool.or_false]

/-- Unmapping an address that is no view's base changes nothing. -/
theorem unmap_none {s : Win} {a : Nat} (h : ∀ x, x ∈ s.views → x.base ≠ a) :
    s.unmapViewOfFile a = (s.did (.unmapViewOfFile a), .error s.choice.code) := by
  simp only [unmapViewOfFile]
  rw [if_neg]
  simp only [List.any_eq_true, decide_eq_true_eq, not_exists, not_and]
  exact h

theorem _root_.Vmap.Spec.WinSame.trans {a b c : Win} (h : WinSame a b) (g : WinSame b c) : WinSame a c := by
  refine ⟨Nat.le_trans h.next g.next, g.file.trans h.file, fun id hi => ?_, fun id h1 h2 => ?_⟩
  · have := g.old id (Nat.lt_of_lt_of_le hi h.next)
    exact ⟨this.1.trans (h.old id hi).1, this.2.trans (h.old id hi).2⟩
  · by_cases hb : id < b.next
    · rw [(g.old id hb).1, (g.old id hb).2]; exact h.new id h1 hb
    · exact g.new id (by omega) h2

/-- The bytes are the same. -/
theorem _root_.Vmap.Spec.WinSame.eq {a b : Win} (h : b.bytes = a.bytes) (hn : b.next = a.next) : WinSame a b :=
  ⟨by rw [hn]; exact Nat.le_refl _, by rw [h], fun _ _ => by rw [h]; exact ⟨rfl, rfl⟩, fun _ _ _ => by omega⟩

/-- A new section. -/
theorem _root_.Vmap.Spec.WinSame.section {a b : Win} (h : b.bytes = a.bytes.newSection a.next)
    (hn : b.next = a.next + 1) : WinSame a b := by
  refine ⟨by omega, by rw [h]; rfl, fun id hi => ?_, fun id h1 h2 => ?_⟩
  · rw [h]
    exact ⟨funext fun i => if_neg (by omega), funext fun i => if_neg (by omega)⟩
  · rw [h]
    exact ⟨fun i => if_pos (by omega), fun i => if_pos (by omega)⟩

theorem _root_.Vmap.Spec.WinRest.trans {a b c : Win} (h : WinRest a b) (g : WinRest b c) : WinRest a c :=
  ⟨g.1.trans h.1, g.2.trans h.2, g.3.trans h.3, g.4.trans h.4, g.5.trans h.5, h.6.trans g.6⟩

theorem _root_.Vmap.Spec.WinRest.wf {t : Target} {s s' : Win} (w : WinWf t s) (r : WinRest s s')
    (hn : s'.next = s.next) (hv : s'.views = s.views) : WinWf t s' :=
  ⟨by rw [r.page, r.gran]; exact w.sizes, by rw [hv, hn]; exact w.views, by rw [r.reserved]; exact w.reserved,
    by rw [r.handles, hn]; exact w.handles⟩

/-! ### Rings -/

/-- What one attempt of `map_ring_handle` does. -/
theorem mapRingHandle_cases {t : Target} {s : Win} (w : WinWf t s) {h : Nat} {sec : Section}
    (hs : s.handles h = some sec) {len pg : Nat} (hl : 0 < len) (hp : pg ≠ 0)
    (hfit : pg + 2 * len < t.lim) :
    ∃ s' r, s.mapRingHandle t h len pg = .ok (s', r) ∧ WinRest s s' ∧ s'.next = s.next ∧
      reservations s' = reservations s ∧
      (∀ a, r = .ok a → a = pg ∧ s.gran ∣ pg ∧ s'.views = [⟨pg + len, len, sec, 0, { read := true, write := true }⟩,
          ⟨pg, len, sec, 0, { read := true, write := true }⟩] ++ s.views ∧
        (∀ v, v ∈ s.views → pg + 2 * len ≤ v.base ∨ v.base + v.len ≤ pg)) ∧
      (∀ e, r = .error e → s'.views = s.views ∧ ∃ code,
        e = Error.lastOsError .ringPrimary code ∨ e = Error.lastOsError .ringSecondary code) := by
  have hp0 := w.page_pos
  have h0 : 0 < t.lim := t.lim_pos
  have hadd : ptrAdd t pg len = pg + len := ptrAdd_ok (by omega)
  have hlen : ¬ len = 0 := by omega
  simp only [mapRingHandle, bind, Except.bind, hadd]
  rcases view_cases (t := t) s hs .ringPrimary { read := true, write := true } (off := 0) len pg h0 with
    ⟨e, he⟩ | ⟨a, n, g1, g2, g3, g4, g5, g6, g7, g8, g9, g10, he⟩
  · rw [he]
    refine ⟨_, _, rfl, ⟨rfl, rfl, rfl, rfl, rfl, .eq rfl rfl⟩, rfl, ?_, fun _ hh => (by cases hh), ?_⟩
    · exact List.countP_cons_of_neg (by simp)
    · intro e' h'
      injection h' with h'
      exact ⟨rfl, e, .inl h'.symm⟩
  · rw [he, g3 hp]
    have ha := g3 hp
    subst ha
    rw [if_neg hlen] at g2
    have g2 := g2.symm
    subst g2
    simp only []
    generalize hs1 : ({ s.did (.mapViewOfFileEx h { read := true, write := true } (0 / 2 ^ 32)
      (0 % 2 ^ 32) len a) with
      views := ⟨a, len, sec, 0, { read := true, write := true }⟩ :: s.views } : Win) = s1
    have v1 : s1.views = ⟨a, len, sec, 0, { read := true, write := true }⟩ :: s.views := by rw [← hs1]
    have hh1 : s1.handles h = some sec := by rw [← hs1]; exact hs
    have r1 : WinRest s s1 := by rw [← hs1]; exact ⟨rfl, rfl, rfl, rfl, rfl, .eq rfl rfl⟩
    have n1 : s1.next = s.next := by rw [← hs1]; rfl
    have c1 : reservations s1 = reservations s := by
      rw [← hs1]; exact List.countP_cons_of_neg (by simp)
    have hfirst : ∀ v, v ∈ s.views → a + len ≤ v.base ∨ v.base + v.len ≤ a :=
      fun v hv => free_views hp0 g9 hv
    rcases view_cases (t := t) s1 hh1 .ringSecondary { read := true, write := true } (off := 0) len
        (a + len) h0 with ⟨e, he2⟩ | ⟨b, n, k1, k2, k3, -, -, -, -, -, k9, -, he2⟩
    · rw [he2]
      simp only [pure, Except.pure]
      have hun := unmap_last (s := s1.did (.mapViewOfFileEx h { read := true, write := true }
        (0 / 2 ^ 32) (0 % 2 ^ 32) len (a + len)))
        (v := ⟨a, len, sec, 0, { read := true, write := true }⟩) (vs := s.views) v1 (by
          intro x hx
          have := hfirst x hx
          have := (w.views x hx).1
          show x.base ≠ a
          omega)
      rw [hun]
      refine ⟨_, _, rfl, ⟨r1.1, r1.2, r1.3, r1.4, r1.5, r1.6.trans (.eq rfl rfl)⟩, n1, ?_, fun _ hh => (by cases hh), ?_⟩
      · rw [← c1]
        exact (List.countP_cons_of_neg (by simp)).trans (List.countP_cons_of_neg (by simp))
      · intro e' h'
        injection h' with h'
        exact ⟨rfl, e, .inr h'.symm⟩
    · have hb := k3 (by omega)
      rw [if_neg hlen] at k2
      have k2 := k2.symm
      subst hb
      subst k2
      rw [he2]
      refine ⟨_, _, rfl, ⟨r1.1, r1.2, r1.3, r1.4, r1.5, r1.6.trans (.eq rfl rfl)⟩, n1, ?_, ?_, fun _ hh => (by cases hh)⟩
      · rw [← c1]
        exact List.countP_cons_of_neg (by simp)
      · intro a' h'
        injection h' with h'
        refine ⟨h'.symm, Nat.dvd_of_mod_eq_zero g7, ?_, ?_⟩
        · show _ :: s1.views = _
          rw [v1]; rfl
        · intro v hv
          have e1 := hfirst v hv
          have e2 := free_views (s := s1) (by rw [r1.page]; exact hp0) k9
            (by rw [v1]; exact List.mem_cons_of_mem _ hv)
          have := (w.views v hv).1
          omega

/-- What the loop of `map_ring` does when it may go round `left` more times. -/
theorem mapRingLoop_cases {t : Target} {h : Nat} {sec : Section} {len : Nat} (hl : 0 < len)
    (left : Nat) : ∀ {s : Win}, WinWf t s → s.handles h = some sec →
    ∃ s' r, mapRingLoop t left s h len (2 * len) = .ok (s', r) ∧ WinRest s s' ∧ s'.next = s.next ∧
      reservations s < reservations s' ∧ reservations s' ≤ reservations s + left + 1 ∧
      (∀ pg, r = .ok pg → pg ≠ 0 ∧ pg + 2 * len < t.lim ∧ s.gran ∣ pg ∧
        s'.views = [⟨pg + len, len, sec, 0, { read := true, write := true }⟩,
          ⟨pg, len, sec, 0, { read := true, write := true }⟩] ++ s.views ∧
        (∀ v, v ∈ s.views → pg + 2 * len ≤ v.base ∨ v.base + v.len ≤ pg)) ∧
      (∀ e, r = .error e → s'.views = s.views ∧ ∃ code,
        e = Error.lastOsError .ringAllocate code ∨
        (e = Error.lastOsError .ringPrimary code ∨ e = Error.lastOsError .ringSecondary code) ∧
          reservations s' = reservations s + left + 1) := by
  induction left with
  | zero =>
    intro s w hs
    rcases reserve_cases w (len := 2 * len) (by omega) with ⟨e, he⟩ | ⟨pg, hp, hfit, he⟩
    · refine ⟨s.did (.virtualAlloc (2 * len)), .error (Error.lastOsError .ringAllocate e),
        by rw [mapRingLoop, he]; rfl, ⟨rfl, rfl, rfl, rfl, rfl, .eq rfl rfl⟩, rfl, ?_, ?_,
        fun _ hh => (by cases hh), ?_⟩
      · show _ < List.countP _ (_ :: s.log)
        rw [List.countP_cons_of_pos (by rfl)]
        exact Nat.lt_succ_self _
      · show List.countP _ (_ :: s.log) ≤ _
        rw [List.countP_cons_of_pos (by rfl)]
        exact Nat.le_refl _
      · intro e' h'
        injection h' with h'
        exact ⟨rfl, e, .inl h'.symm⟩
    · have hc : reservations ((s.did (.virtualAlloc (2 * len))).did (.virtualFree pg)) =
          reservations s + 1 :=
        (List.countP_cons_of_neg (by simp)).trans (List.countP_cons_of_pos (by rfl))
      obtain ⟨s', r, g1, g2, g3, g4, g5, g6⟩ := mapRingHandle_cases
        (s := (s.did (.virtualAlloc (2 * len))).did (.virtualFree pg))
        (WinRest.wf w ⟨rfl, rfl, rfl, rfl, rfl, .eq rfl rfl⟩ rfl rfl) hs hl hp hfit
      rw [hc] at g4
      refine ⟨s', r, ?_, ⟨g2.1, g2.2, g2.3, g2.4, g2.5, WinSame.trans (b := (s.did (.virtualAlloc (2 * len))).did (.virtualFree pg))
        (.eq rfl rfl) g2.6⟩, g3, by omega, by omega, ?_, ?_⟩
      · rw [mapRingLoop, he]
        simp only [bind, Except.bind, g1]
        cases r <;> rfl
      · intro pg' hr
        obtain ⟨rfl, g, a, b⟩ := g5 pg' hr
        exact ⟨hp, hfit, g, a, b⟩
      · intro e hr
        obtain ⟨a, code, b⟩ := g6 e hr
        exact ⟨a, code, .inr ⟨b, by omega⟩⟩
  | succ left ih =>
    intro s w hs
    rcases reserve_cases w (len := 2 * len) (by omega) with ⟨e, he⟩ | ⟨pg, hp, hfit, he⟩
    · refine ⟨s.did (.virtualAlloc (2 * len)), .error (Error.lastOsError .ringAllocate e),
        by rw [mapRingLoop, he]; rfl, ⟨rfl, rfl, rfl, rfl, rfl, .eq rfl rfl⟩, rfl, ?_, ?_,
        fun _ hh => (by cases hh), ?_⟩
      · show _ < List.countP _ (_ :: s.log)
        rw [List.countP_cons_of_pos (by rfl)]
        exact Nat.lt_succ_self _
      · show List.countP _ (_ :: s.log) ≤ _
        rw [List.countP_cons_of_pos (by rfl)]
        show reservations s + 1 ≤ _
        omega
      · intro e' h'
        injection h' with h'
        exact ⟨rfl, e, .inl h'.symm⟩
    · have hc : reservations ((s.did (.virtualAlloc (2 * len))).did (.virtualFree pg)) =
          reservations s + 1 :=
        (List.countP_cons_of_neg (by simp)).trans (List.countP_cons_of_pos (by rfl))
      obtain ⟨s1, r, g1, g2, g3, g4, g5, g6⟩ := mapRingHandle_cases
        (s := (s.did (.virtualAlloc (2 * len))).did (.virtualFree pg))
        (WinRest.wf w ⟨rfl, rfl, rfl, rfl, rfl, .eq rfl rfl⟩ rfl rfl) hs hl hp hfit
      rw [hc] at g4
      have rest1 : WinRest s s1 := ⟨g2.1, g2.2, g2.3, g2.4, g2.5, WinSame.trans (b := (s.did (.virtualAlloc (2 * len))).did (.virtualFree pg))
        (.eq rfl rfl) g2.6⟩
      cases r with
      | ok a =>
        obtain ⟨rfl, hg, ha, hb⟩ := g5 a rfl
        refine ⟨s1, .ok a, ?_, rest1, g3, by omega, by omega, ?_, fun _ hh => (by cases hh)⟩
        · rw [mapRingLoop, he]
          simp only [bind, Except.bind, g1]
          rfl
        · intro pg' hr
          injection hr with hr
          subst hr
          exact ⟨hp, hfit, hg, ha, hb⟩
      | error e =>
        obtain ⟨ha, -⟩ := g6 e rfl
        obtain ⟨s', r', k1, k2, k3, k4, k5, k6, k7⟩ := ih (s := s1) (WinRest.wf w rest1 g3 ha)
          (by rw [rest1.handles]; exact hs)
        refine ⟨s', r', ?_, rest1.trans k2, k3.trans g3, by omega, by omega, ?_, ?_⟩
        · rw [mapRingLoop, he]
          simp only [bind, Except.bind, g1]
          exact k1
        · intro pg' hr
          have := k6 pg' hr
          rw [ha, rest1.gran] at this
          exact this
        · intro e' hr
          obtain ⟨b1, code, b2⟩ := k7 e' hr
          refine ⟨b1.trans ha, code, b2.imp_right fun h => ⟨h.1, by omega⟩⟩

/-- Addresses outside a new view show what they showed. -/
theorem shows_cons_ne {s s' : Win} {v : WinView} (hv : s'.views = v :: s.views) {a : Nat}
    (h : ¬ (v.base ≤ a ∧ a < v.base + v.len)) : winShows s' a = winShows s a := by
  simp only [winShows, hv]
  rw [List.find?_cons_of_neg (by simpa using h)]

theorem shows_cons {s' : Win} {v : WinView} {vs : List WinView} (hv : s'.views = v :: vs) {a : Nat}
    (h : v.base ≤ a ∧ a < v.base + v.len) : winShows s' a = some (v.sec.id, v.off + (a - v.base)) := by
  simp only [winShows, hv]
  rw [List.find?_cons_of_pos (by simpa using h)]
  rfl

theorem shows_none {s : Win} {a : Nat} (h : ∀ v, v ∈ s.views → ¬ (v.base ≤ a ∧ a < v.base + v.len)) :
    winShows s a = none := by
  simp only [winShows, Option.map_eq_none_iff, List.find?_eq_none, decide_eq_true_eq]
  exact h

/-! ### Maps -/

/-- What creating a section, viewing it and closing the handle does. -/
theorem section_view {t : Target} {s : Win} (w : WinWf t s) (op1 op2 : Operation) (file : Option Nat)
    (prot : WinProt) (access : WinAccess) {size off len : Nat} (hs : size < t.lim) (ho : off < t.lim)
    {r1 : Win × Result Nat} (h1 : s.handleNew t op1 file prot size = .ok r1)
    {out : Exec (Win × Result Nat)}
    (hout : out = match r1 with
      | (s, .error e) => .ok (s, .error e)
      | (s, .ok h) => match s.view t h op2 access off len 0 with
        | .error f => .error f
        | .ok (s, r) => .ok (s.dropHandle h, r)) :
    ∃ s' r, out = .ok (s', r) ∧ WinRest s s' ∧ WinWf t s' ∧ s.next ≤ s'.next ∧
      (∀ base, r = .ok base → ∃ n sz, n ≠ 0 ∧ (0 < len → n = len) ∧ (file = none → sz = size) ∧
        (∀ f, file = some f → ∃ fl, s.files f = some fl ∧ (size = 0 → sz = fl)) ∧ off + n ≤ sz ∧
        (len = 0 → n = sz - off) ∧
        base ≠ 0 ∧ base % s.gran = 0 ∧ (off % s.gran = 0 ∧ base + s.roundPage n < t.lim) ∧
        (∀ v, v ∈ s.views → base + s.roundPage n ≤ v.base ∨ v.base + s.roundPage v.len ≤ base) ∧
        s'.views = ⟨base, n, ⟨s.next, file, prot, sz⟩, off, access⟩ :: s.views) ∧
      (∀ e, r = .error e → s'.views = s.views ∧ ∃ code,
        e = Error.lastOsError op1 code ∨ e = Error.lastOsError op2 code) := by
  rcases handleNew_cases (t := t) s op1 file prot hs with ⟨e, he⟩ | ⟨sz, hz, hz1, hz2, he⟩
  · rw [he] at h1
    injection h1 with h1
    subst h1
    refine ⟨_, _, hout, ⟨rfl, rfl, rfl, rfl, rfl, .eq rfl rfl⟩, WinRest.wf w ⟨rfl, rfl, rfl, rfl, rfl, .eq rfl rfl⟩ rfl rfl,
      Nat.le_refl _, fun _ h => (by cases h), ?_⟩
    intro e' h'
    injection h' with h'
    exact ⟨rfl, e, .inl h'.symm⟩
  rw [he] at h1
  injection h1 with h1
  subst h1
  simp only [] at hout
  have hnext : s.handles s.next = none := by
    cases hc : s.handles s.next with
    | none => rfl
    | some sec => exact absurd (w.handles _ _ hc).1 (Nat.lt_irrefl _)
  have hclosed : ∀ hh : Nat → Option Section,
      hh = (fun h => if h = s.next then some ⟨s.next, file, prot, sz⟩ else s.handles h) →
      (fun q => if q = s.next then none else hh q) = s.handles := by
    intro hh e
    funext q
    rw [e]
    by_cases hq : q = s.next
    · rw [if_pos hq, hq, hnext]
    · rw [if_neg hq]; exact if_neg hq
  generalize hs1 : ({ s.did (.createFileMapping file prot (size / 2 ^ 32) (size % 2 ^ 32)) with
    handles := fun h => if h = s.next then some ⟨s.next, file, prot, sz⟩ else s.handles h
    next := s.next + 1
    bytes := s.bytes.newSection s.next } : Win) = s1 at hout
  have v1 : s1.views = s.views := by rw [← hs1]; rfl
  have n1 : s1.next = s.next + 1 := by rw [← hs1]
  have hh1 : s1.handles = fun h => if h = s.next then some ⟨s.next, file, prot, sz⟩
      else s.handles h := by rw [← hs1]
  have p1 : s1.page = s.page ∧ s1.gran = s.gran ∧ s1.files = s.files ∧ s1.reserved = s.reserved := by
    rw [← hs1]; exact ⟨rfl, rfl, rfl, rfl⟩
  have b1 : WinSame s s1 := by rw [← hs1]; exact .section rfl rfl
  have handles1 : ∀ h sec, s.handles h = some sec → h < s.next + 1 ∧ sec.id < s.next + 1 := by
    intro h sec hs
    have := w.handles h sec hs
    omega
  have hrp : ∀ x, s1.roundPage x = s.roundPage x := fun x => by simp only [roundPage, p1.1]
  rcases view_cases (t := t) s1 (h := s.next) (by rw [hh1]; exact if_pos rfl) op2 access len 0 ho with
    ⟨e, he⟩ | ⟨base, n, g1, g2, -, g4, g5, g6, g7, g8, g9, g10, he⟩
  · rw [he] at hout
    simp only [dropHandle, closeHandle] at hout
    refine ⟨_, _, hout, ⟨hclosed _ hh1, p1.2.2.2, p1.2.2.1, p1.1, p1.2.1, b1.trans (.eq rfl rfl)⟩, ⟨?_, ?_, ?_, ?_⟩, ?_,
      fun _ h => (by cases h), ?_⟩
    · show ∃ a b, s1.page = _ ∧ s1.gran = _ ∧ _
      rw [p1.1, p1.2.1]; exact w.sizes
    · show ∀ v, v ∈ s1.views → _ ∧ _ < s1.next
      rw [v1, n1]
      intro v hv
      have := w.views v hv
      omega
    · show ∀ r, r ∈ s1.reserved → _
      rw [p1.2.2.2]; exact w.reserved
    · show ∀ h sec, (fun q => if q = s.next then none else s1.handles q) h = some sec → h < s1.next ∧ _ < s1.next
      rw [hclosed _ hh1, n1]
      exact handles1
    · show s.next ≤ s1.next
      omega
    · intro e' h'
      injection h' with h'
      exact ⟨v1, e, .inr h'.symm⟩
  · rw [he] at hout
    simp only [dropHandle, closeHandle] at hout
    have hp0 : 0 < s1.page := by rw [p1.1]; exact w.page_pos
    refine ⟨_, _, hout, ⟨hclosed _ hh1, p1.2.2.2, p1.2.2.1, p1.1, p1.2.1, b1.trans (.eq rfl rfl)⟩, ⟨?_, ?_, ?_, ?_⟩, ?_, ?_,
      fun _ h => (by cases h)⟩
    · show ∃ a b, s1.page = _ ∧ s1.gran = _ ∧ _
      rw [p1.1, p1.2.1]; exact w.sizes
    · show ∀ v, v ∈ _ :: s1.views → _ ∧ _ < s1.next
      rw [v1, n1]
      intro v hv
      rcases List.mem_cons.mp hv with rfl | hv
      · exact ⟨Nat.pos_of_ne_zero g1, Nat.lt_succ_self _⟩
      · have := w.views v hv
        omega
    · show ∀ r, r ∈ s1.reserved → _
      rw [p1.2.2.2]; exact w.reserved
    · show ∀ h sec, (fun q => if q = s.next then none else s1.handles q) h = some sec → h < s1.next ∧ _ < s1.next
      rw [hclosed _ hh1, n1]
      exact handles1
    · show s.next ≤ s1.next
      omega
    · intro b hb
      injection hb with hb
      subst hb
      refine ⟨n, sz, g1, fun h => by rw [g2, if_neg (by omega)], hz1, hz2, g5,
        fun h => by rw [g2, if_pos h], g6, by rw [← p1.2.1]; exact g7,
        ⟨by rw [← p1.2.1]; exact g4, by rw [← hrp]; exact g8⟩, ?_, ?_⟩
      · intro v hv
        rw [free, Bool.and_eq_true, v1] at g9
        have := of_decide_eq_true (List.all_eq_true.mp g9.1 v hv)
        rw [hrp, hrp] at this
        exact this
      · show _ :: s1.views = _
        rw [v1]

theorem bounds_start {t : Target} {k base d len : Nat} (hk : k < t.width.bits)
    (hb : base % 2 ^ k = 0) (hd : d < 2 ^ k) (h : len + d + 2 ^ k < t.lim) :
    ∃ n, (Size.withSize (2 ^ k)).bounds t (base + d) len = .ok (base, n) := by
  have hm : (base + d) % 2 ^ k = d := by
    rw [Nat.add_mod, hb, Nat.zero_add, Nat.mod_mod, Nat.mod_eq_of_lt hd]
  unfold Size.bounds
  rw [offset_eq, hm]
  simp only [bind, Except.bind]
  rw [addU_ok (by omega)]
  simp only
  rw [round_eq hk h]
  simp only [pure, Except.pure, Nat.add_sub_cancel]
  exact ⟨_, rfl⟩

theorem unmap_view {s : Win} {v : WinView} {vs : List WinView} (hv : s.views = v :: vs)
    (h : ∀ x, x ∈ vs → x.base ≠ v.base) (len : Nat) :
    (s.unmap v.base len).1 = { s.did (.unmapViewOfFile v.base) with
      views := vs, locked := fun q => s.locked q && !v.onPage s.page q } := by
  rw [unmap, unmap_last hv h]

/-- A view of `n` bytes from section byte `o` at `base` is the map of `len` bytes at `base + d`, and
dropping that map removes exactly that view. -/
theorem made_map {t : Target} {s s' : Win} (w : WinWf t s) (r : WinRest s s') {base n d len o : Nat}
    {sec : Section} {access : WinAccess} {prot : Protect} (ha : WinAllows prot access)
    (hlen : len + d ≤ n) (hn0 : n ≠ 0) (hb : base ≠ 0) (hg : base % s.gran = 0)
    (hfit' : o % s.gran = 0 ∧ base + s.roundPage n < t.lim) (hd : d < s.gran) (hid : sec.id = s.next)
    (hfree' : ∀ v, v ∈ s.views → base + s.roundPage n ≤ v.base ∨ v.base + s.roundPage v.len ≤ base)
    (hv : s'.views = ⟨base, n, sec, o, access⟩ :: s.views) (hsize : o + n ≤ sec.size) (hnext : s.next < s'.next) :
    WinMap t s s' ⟨base + d, len⟩ sec.file (o + d) prot ⟨base, n, sec, o, access⟩ ∧
    (0 < len → ∃ s2, s'.dropMap t ⟨base + d, len⟩ = .ok s2 ∧ s2.views = s.views ∧ WinRest s s2) := by
  obtain ⟨a, b, hpa, hgb, hab, hbits⟩ := w.sizes
  have hge : s.gran ≤ base := by
    have := Nat.dvd_of_mod_eq_zero hg
    exact Nat.le_of_dvd (by omega) this
  have hrn := s.roundPage_le w.page_pos n
  have hfit : base + n < t.lim := by omega
  have hfree : ∀ v, v ∈ s.views → base + n ≤ v.base ∨ v.base + v.len ≤ base := by
    intro v hv
    have := hfree' v hv
    have := s.roundPage_le w.page_pos v.len
    omega
  refine ⟨⟨hv, ⟨by rw [hid]; exact Nat.le_refl _, rfl⟩, ha, ⟨by simp, by simp only []; omega, hfit, hb⟩, ?_, ?_, ?_,
    ⟨Nat.dvd_of_mod_eq_zero hg, by simp only []; omega, Nat.dvd_of_mod_eq_zero hfit'.1⟩,
    ⟨Nat.pos_of_ne_zero hn0, hfit'.2, hfree'⟩,
    by simp only []; omega, by simp only []; omega⟩, ?_⟩
  · intro i hi
    simp only [] at hi ⊢
    apply shows_none
    intro v hv
    have := hfree v hv
    omega
  · intro i hi
    simp only [] at hi ⊢
    rw [shows_cons hv (by simp only []; omega)]
    simp only [Option.some.injEq, Prod.mk.injEq, true_and]
    omega
  · intro a ha
    exact shows_cons_ne hv ha
  · intro hl
    obtain ⟨m, hm⟩ := bounds_start (t := t) (k := b) (base := base) (d := d) (len := len) (by omega)
      (by rw [← hgb]; exact hg) (by rw [← hgb]; exact hd) (by rw [← hgb]; omega)
    have hsz : s'.sizeAlloc = Size.withSize (2 ^ b) := by
      rw [sizeAlloc, systemInfo, ← hgb, ← r.gran]
    have hu := unmap_view hv (fun x hx => by
      have := hfree x hx
      have := (w.views x hx).1
      show x.base ≠ base
      omega) m
    simp only [] at hu
    refine ⟨{ s'.did (.unmapViewOfFile base) with
      views := s.views
      locked := fun q => s'.locked q && !WinView.onPage s'.page ⟨base, n, sec, o, access⟩ q }, ?_, rfl, r.1, r.2, r.3, r.4, r.5, r.6.trans (.eq rfl rfl)⟩
    simp only [dropMap, if_pos hl, hsz, hm, bind, Except.bind, hu, pure, Except.pure]

theorem mapFileBits_allows (p : Protect) : WinAllows p (mapFileBits p).2 := by
  cases p <;> constructor <;> simp [mapFileBits]

theorem mapAnonBits_allows (p : Protect) : WinAllows p (mapAnonBits p).2 := by
  cases p <;> constructor <;> simp [mapAnonBits]

end Win
end Vmap
