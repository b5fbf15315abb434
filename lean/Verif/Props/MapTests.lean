import Verif.Proofs.MapTests
/-
C164: the tests of maps in the crate's own test suite.
-/
namespace Vmap
open Kernel Spec

variable {t : Target} {k : Kernel} {path : String}

/-- An assertion that holds. -/
theorem gives_ok {call : Exec Nat} {v : Nat} (h : call = .ok v) : MapTests.gives call v = .ok () := by
  subst h
  simp only [MapTests.gives, bind, Except.bind, Doc.assert, decide_true, if_true]

/-- C164: `allocation_size`, for every unit that is a power of two (but 1) and three of which fit the
address space; the test has 4096. -/
theorem C164_allocation_size (t : Target) {a : Nat} (ha : 0 < a) (fits : 3 * 2 ^ a < t.lim) :
    MapTests.allocationSize t (2 ^ a) = .ok () := by
  have hk : a < t.width.bits := by
    apply Decidable.byContradiction
    intro h
    have : 2 ^ t.width.bits ≤ 2 ^ a := Nat.pow_le_pow_right (by decide) (Nat.le_of_not_lt h)
    have : t.lim ≤ 2 ^ a := this
    omega
  have two : 2 ≤ 2 ^ a := by
    have : 2 ^ 1 ≤ 2 ^ a := Nat.pow_le_pow_right (by decide) ha
    exact this
  have units : ∀ {x c : Nat}, c * 2 ^ a ≤ x → x < c * 2 ^ a + 2 ^ a → x / 2 ^ a = c := fun h1 h2 =>
    Nat.div_eq_of_lt_le h1 (by rw [Nat.add_mul, Nat.one_mul]; exact h2)
  have rnd : ∀ {n c v : Nat}, n ≤ c * 2 ^ a → c * 2 ^ a < n + 2 ^ a → n ≤ 2 * 2 ^ a → c * 2 ^ a = v →
      MapTests.gives ((Size.withSize (2 ^ a)).round t n) v = .ok () := by
    intro n c v h1 h2 h3 h4
    refine gives_ok ?_
    rw [round_eq hk (by omega), units (c := c) (by omega) (by omega), h4]
  have cnt : ∀ {n c : Nat}, n ≤ c * 2 ^ a → c * 2 ^ a < n + 2 ^ a → n ≤ 2 * 2 ^ a →
      MapTests.gives ((Size.withSize (2 ^ a)).count t n) c = .ok () := by
    intro n c h1 h2 h3
    refine gives_ok ?_
    obtain ⟨d, e, g1, g2⟩ := C03_count t a n hk (by omega)
      (Nat.le_trans h3 (Nat.mul_le_mul_right _ (by decide)))
    rw [e]
    congr 1
    have le := g2 c h1
    apply Decidable.byContradiction
    intro hn
    have : (d + 1) * 2 ^ a ≤ c * 2 ^ a := Nat.mul_le_mul_right _ (by omega)
    rw [Nat.add_mul, Nat.one_mul] at this
    omega
  have cut : ∀ {n c v : Nat}, c * 2 ^ a ≤ n → n < c * 2 ^ a + 2 ^ a → n ≤ 2 * 2 ^ a → c * 2 ^ a = v →
      MapTests.gives ((Size.withSize (2 ^ a)).truncate t n) v = .ok () := by
    intro n c v h1 h2 h3 h4
    refine gives_ok ?_
    rw [truncate_eq hk (by omega), units h1 h2, h4]
  have siz : ∀ {c v : Nat}, c ≤ 2 → c * 2 ^ a = v →
      MapTests.gives ((Size.withSize (2 ^ a)).size t c) v = .ok () := by
    intro c v h1 h2
    have : c * 2 ^ a ≤ 2 * 2 ^ a := Nat.mul_le_mul_right _ h1
    rw [← h2]
    exact gives_ok (C03_size t a c hk (by omega))
  have ofs : ∀ {n c v : Nat}, n = c * 2 ^ a + v → v < 2 ^ a →
      MapTests.gives ((Size.withSize (2 ^ a)).offset t n) v = .ok () := by
    intro n c v h1 h2
    refine gives_ok ?_
    rw [offset_eq, h1, Nat.mul_add_mod_self_right, Nat.mod_eq_of_lt h2]
  simp only [MapTests.allocationSize, bind, Except.bind,
    rnd (n := 0) (c := 0) (v := 0) (by omega) (by omega) (by omega) (by omega),
    rnd (n := 1) (c := 1) (v := 2 ^ a) (by omega) (by omega) (by omega) (by omega),
    rnd (n := 2 ^ a - 1) (c := 1) (v := 2 ^ a) (by omega) (by omega) (by omega) (by omega),
    rnd (n := 2 ^ a) (c := 1) (v := 2 ^ a) (by omega) (by omega) (by omega) (by omega),
    rnd (n := 2 ^ a + 1) (c := 2) (v := 2 * 2 ^ a) (by omega) (by omega) (by omega) (by omega),
    cut (n := 0) (c := 0) (v := 0) (by omega) (by omega) (by omega) (by omega),
    cut (n := 1) (c := 0) (v := 0) (by omega) (by omega) (by omega) (by omega),
    cut (n := 2 ^ a - 1) (c := 0) (v := 0) (by omega) (by omega) (by omega) (by omega),
    cut (n := 2 ^ a) (c := 1) (v := 2 ^ a) (by omega) (by omega) (by omega) (by omega),
    cut (n := 2 ^ a + 1) (c := 1) (v := 2 ^ a) (by omega) (by omega) (by omega) (by omega),
    siz (c := 0) (v := 0) (by omega) (by omega), siz (c := 1) (v := 2 ^ a) (by omega) (by omega),
    siz (c := 2) (v := 2 * 2 ^ a) (by omega) (by omega),
    cnt (n := 0) (c := 0) (by omega) (by omega) (by omega),
    cnt (n := 1) (c := 1) (by omega) (by omega) (by omega),
    cnt (n := 2 ^ a - 1) (c := 1) (by omega) (by omega) (by omega),
    cnt (n := 2 ^ a) (c := 1) (by omega) (by omega) (by omega),
    cnt (n := 2 ^ a + 1) (c := 2) (by omega) (by omega) (by omega),
    cnt (n := 2 * 2 ^ a) (c := 2) (by omega) (by omega) (by omega),
    ofs (n := 0) (c := 0) (v := 0) (by omega) (by omega),
    ofs (n := 1) (c := 0) (v := 1) (by omega) (by omega),
    ofs (n := 2 ^ a - 1) (c := 0) (v := 2 ^ a - 1) (by omega) (by omega),
    ofs (n := 2 ^ a) (c := 1) (v := 0) (by omega) (by omega),
    ofs (n := 2 ^ a + 1) (c := 1) (v := 1) (by omega) (by omega)]

-- the test itself
example (t : Target) : MapTests.allocationSize t 4096 = .ok () :=
  C164_allocation_size t (a := 12) (by decide) (by have := t.lim_cases; omega)

-- of a unit that is no power of two it would not hold
example : MapTests.allocationSize ⟨.w64, true⟩ 4095 = .error .panic := by decide +kernel

/-- C164: `alloc_min`. -/
theorem C164_alloc_min (w : Wf t k) (fits : 100 + k.page < t.lim) : Fine (MapTests.allocMin t k) := by
  obtain ⟨k1, r1, e1, w1, pg1, er1, ok1⟩ := allocedAt w (o := Options.newMut.setLen (.min 100)) rfl
    (by show 0 % k.page + 100 + k.page < t.lim; rw [Nat.zero_mod]; omega)
  refine .ask e1 er1 ?_
  intro m h
  obtain ⟨hl, -, x, n, tx, hle, s⟩ := ok1 m h
  have h0 : (Options.newMut.setLen (.min 100)).offset % k.page = 0 := Nat.zero_mod _
  rw [h0] at hl hle s
  obtain ⟨a1, a2, a3⟩ : 100 ≤ m.len ∧ k.page ∣ 0 + m.len ∧ m.len < 100 + k.page := hl
  rw [Nat.zero_add] at a2
  obtain ⟨a, ha, hb⟩ := w.page
  have hround : (Size.alloc k1).round t 100 = .ok m.len := by
    have h := round_eq (t := t) (k := a) (len := 100) (by omega) (by rw [← ha]; exact fits)
    rw [← ha] at h
    simp only [Size.alloc, Unix.systemInfo, pg1]
    rw [h]
    congr 1
    refine IsRoundUp.unique (isRoundUp_div (len := 100) w.page_pos) ⟨a2, a1, fun b hb hb' => ?_⟩
    obtain ⟨u, hu⟩ := a2
    obtain ⟨v, hv⟩ := hb
    rw [hu] at a3 ⊢
    rw [hv] at hb' ⊢
    refine Nat.mul_le_mul_left _ ?_
    refine Nat.le_of_not_lt fun hlt => ?_
    have := Nat.mul_le_mul_left k.page (show v + 1 ≤ u from hlt)
    rw [Nat.mul_add] at this
    omega
  refine .next hround (.next (assert_of rfl) ?_)
  have hn : 5 ≤ n := by omega
  refine .next (s.shows w1 tx (by rw [List.length_replicate]; exact hle) (Nat.zero_le _) (by omega) ?_) ?_
  · simp only [List.drop_replicate, List.take_replicate]; congr 1; omega
  obtain ⟨k3, e3, w3, -, -, -, -, -, tx3, s3⟩ := s.put w1 tx (by rw [List.length_replicate]; exact hle)
    (new := MapTests.hello) (by show 5 ≤ m.len; omega)
  refine .next e3 (.next (s3.shows w3 tx3 ?_ (Nat.zero_le _) (by omega) ?_) (.ok _))
  · simp only [List.length_append, List.length_take, List.length_drop, List.length_replicate]
    have : MapTests.hello.length = 5 := rfl
    omega
  · simp only [List.take_zero, List.nil_append, Nat.zero_add, List.drop_zero]
    rw [List.take_append_of_le_length (by decide)]; rfl

example : Fine (MapTests.allocMin ⟨.w64, true⟩ (demo 0)) := C164_alloc_min (demo_wf 0) (by decide)

example : ended (MapTests.allocMin ⟨.w64, true⟩ (demo 0)) = true := by decide +kernel

/-- C164: `alloc_exact`. -/
theorem C164_alloc_exact (w : Wf t k) : Fine (MapTests.allocExact t k) := by
  obtain ⟨k1, r1, e1, w1, pg1, er1, ok1⟩ := allocedAt w (o := Options.newMut.setLen (.exact 5)) rfl
    (by show 0 % k.page + 5 < t.lim; rw [Nat.zero_mod]; exact lim_small)
  refine .ask e1 er1 ?_
  intro m h
  obtain ⟨hl, -, x, n, tx, hle, s⟩ := ok1 m h
  have h0 : (Options.newMut.setLen (.exact 5)).offset % k.page = 0 := Nat.zero_mod _
  rw [h0] at hl hle s
  have hl : m.len = 5 := hl
  refine .next (assert_of hl) ?_
  have hn : 5 ≤ n := by omega
  refine .next (s.shows w1 tx (by rw [List.length_replicate]; exact hle) (Nat.zero_le _) (Nat.le_refl _) ?_) ?_
  · simp only [List.drop_replicate, List.take_replicate, hl]; congr 1; omega
  obtain ⟨k3, e3, w3, -, -, -, -, -, tx3, s3⟩ := s.put w1 tx (by rw [List.length_replicate]; exact hle)
    (new := MapTests.hello) (by show 5 ≤ m.len; omega)
  refine .next e3 (.next (s3.shows w3 tx3 ?_ (Nat.zero_le _) (Nat.le_refl _) ?_) (.ok _))
  · simp only [List.length_append, List.length_take, List.length_drop, List.length_replicate]
    have : MapTests.hello.length = 5 := rfl
    omega
  · simp only [List.take_zero, List.nil_append, Nat.zero_add, List.drop_zero, hl]
    rw [List.take_append_of_le_length (by decide)]; rfl

example : Fine (MapTests.allocExact ⟨.w32, false⟩ (demo 0)) := C164_alloc_exact (demo_wf 0)

example : ended (MapTests.allocExact ⟨.w32, false⟩ (demo 0)) = true := by decide +kernel

/-- C164: `alloc_offset`. -/
theorem C164_alloc_offset (w : Wf t k) (page : 5 < k.page) (fits : k.page + 1 < t.lim) :
    Fine (MapTests.allocOffset t k MapTests.hello) := by
  obtain ⟨h1, h2, k1, r1, e1, er1, ok1⟩ := split_made w page fits
  refine .next h1 (.next h2 (.ask e1 er1 fun m hm => ?_))
  obtain ⟨k2, r2, e2, er2, ok2⟩ := ok1 m hm
  refine .ask (by rw [e2]) er2 fun _ h => ?_
  obtain ⟨x, s, hz⟩ := ok2 h
  refine .next (assert_of s.len) (.next (s.shows rfl fun i hi => ?_) ?_)
  · rw [hz i hi]
    simp only [List.getD_eq_getElem?_getD, List.getElem?_replicate, if_pos hi]; rfl
  obtain ⟨k3, e3, s3, d1, d2⟩ := s.store (new := MapTests.hello) rfl
  refine .next (x := DocMap.put k2 m MapTests.hello) (a := k3)
    (by rw [DocMap.put, if_pos (by rw [s.len]; decide)]; exact e3) ?_
  refine .next (s3.shows rfl fun i hi => ?_) (.ok _)
  by_cases h5 : i < 5
  · rw [d1 i h5]
    have : ∀ i, i < 5 → MapTests.hello.getD i 0 = (MapTests.hello ++ [0]).getD i 0 := by decide
    exact this i h5
  · have : i = 5 := by omega
    subst this
    rw [d2, hz 5 (by omega)]; rfl

example : Fine (MapTests.allocOffset ⟨.w64, true⟩ (demo 0) MapTests.hello) :=
  C164_alloc_offset (demo_wf 0) (by decide) (by decide)

example : ended (MapTests.allocOffset ⟨.w64, true⟩ (demo 0) MapTests.hello) = true := by decide +kernel

/-- C164: the remark in `alloc_offset`: writing one more byte, whatever it is, is a memory fault. -/
theorem C164_alloc_offset_fault (w : Wf t k) (page : 5 < k.page) (fits : k.page + 1 < t.lim) (b : Byte) :
    MapTests.allocOffset t k (MapTests.hello ++ [b]) = .error .memory ∨
      ∃ k' e n, MapTests.allocOffset t k (MapTests.hello ++ [b]) = .ok (k', .error e) ∧ e.rawOsError = some n := by
  obtain ⟨h1, h2, k1, r1, e1, er1, ok1⟩ := split_made w page fits
  simp only [MapTests.allocOffset, h1, h2, bind, Except.bind, e1]
  cases r1 with
  | error e =>
    obtain ⟨n, hn⟩ := er1 e rfl
    exact .inr ⟨k1, e, n, rfl, hn⟩
  | ok m =>
    obtain ⟨k2, r2, e2, er2, ok2⟩ := ok1 m rfl
    simp only [DocMap.ask, e2]
    cases r2 with
    | error e =>
      obtain ⟨n, hn⟩ := er2 e rfl
      exact .inr ⟨k2, e, n, rfl, hn⟩
    | ok u =>
      obtain ⟨x, s, hz⟩ := ok2 rfl
      obtain ⟨k3, e3, s3, -⟩ := s.store (new := MapTests.hello) rfl
      obtain ⟨mw, l⟩ := s3.last
      refine .inl ?_
      have hsh : DocMap.shows k2 m 0 m.len (List.replicate 6 0) = .ok () := s.shows rfl fun i hi => by
        rw [hz i hi]
        simp only [List.getD_eq_getElem?_getD, List.getElem?_replicate, if_pos hi]; rfl
      have hput : DocMap.put k2 m (MapTests.hello ++ [b]) = .error .memory := by
        rw [DocMap.put, if_pos (by rw [s.len]; exact Nat.le_refl _), storeN_snoc e3]
        exact Maps.store_denied l rfl b
      simp only [assert_of s.len, hsh, hput]

example : (match MapTests.allocOffset ⟨.w64, true⟩ (demo 0) (MapTests.hello ++ [33]) with
    | .error .memory => true
    | _ => false) = true := by
  decide +kernel

/-- C164: `read_end`. -/
theorem C164_read_end (tab : SysTable) (w : Wf t k) (has : FileHas k path DocMap.about) :
    Fine (MapTests.readEnd tab t k path) := by
  obtain ⟨k1, r1, e1, w1, -, er1, ok1⟩ := openedAs tab w (o := Options.new.setOffset 29)
    ⟨trivial, trivial, lim_small⟩ (.inl has) lim_small rfl (by decide) rfl (size := 67) (n := 38)
    (new := DocMap.about) rfl (by show 29 ≤ 67; decide) rfl rfl
  refine .ask e1 er1 ?_
  rintro ⟨m, fd⟩ h
  obtain ⟨hl, x, -, -, tx, hle, s⟩ := ok1 m fd h
  refine .next (assert_of (by omega)) (.next (subU_ok (by decide)) (.next (assert_of (by rw [hl]; rfl)) ?_))
  exact .next (s.shows w1 tx hle (Nat.zero_le _) (by omega) (by rfl)) (.ok _)

example : Fine (MapTests.readEnd docTab ⟨.w64, true⟩ (docDir DocMap.about) "data") :=
  C164_read_end docTab (docDir_wf _) (docDir_has _)

example : ended (MapTests.readEnd docTab ⟨.w64, true⟩ (docDir DocMap.about) "data") = true := by
  decide +kernel

/-- C164: `read_min`. -/
theorem C164_read_min (tab : SysTable) (w : Wf t k) (has : FileHas k path DocMap.about) :
    Fine (MapTests.readMin tab t k path) := by
  obtain ⟨k1, r1, e1, w1, -, er1, ok1⟩ := openedAs tab w (o := (Options.new.setOffset 29).setLen (.min 30))
    ⟨trivial, lim_small, lim_small⟩ (.inl has) lim_small rfl (by decide) rfl (size := 67) (n := 38)
    (new := DocMap.about) rfl (by show 29 + 30 ≤ 67; decide) rfl rfl
  refine .ask e1 er1 ?_
  rintro ⟨m, fd⟩ h
  obtain ⟨hl, x, -, -, tx, hle, s⟩ := ok1 m fd h
  refine .next (assert_of (by omega)) (.next (subU_ok (by decide)) (.next (assert_of (by rw [hl]; rfl)) ?_))
  exact .next (s.shows w1 tx hle (Nat.zero_le _) (by omega) (by rfl)) (.ok _)

example : Fine (MapTests.readMin docTab ⟨.w64, true⟩ (docDir DocMap.about) "data") :=
  C164_read_min docTab (docDir_wf _) (docDir_has _)

example : ended (MapTests.readMin docTab ⟨.w64, true⟩ (docDir DocMap.about) "data") = true := by
  decide +kernel

/-- C164: `read_max`. -/
theorem C164_read_max (tab : SysTable) (w : Wf t k) (has : FileHas k path DocMap.about) :
    Fine (MapTests.readMax tab t k path) := by
  obtain ⟨k1, r1, e1, w1, -, er1, ok1⟩ := openedAs tab w (o := (Options.new.setOffset 29).setLen (.max 30))
    ⟨trivial, lim_small, lim_small⟩ (.inl has) lim_small rfl (by decide) rfl (size := 67) (n := 30)
    (new := DocMap.about) rfl (by show 29 ≤ 67; decide) rfl rfl
  refine .ask e1 er1 ?_
  rintro ⟨m, fd⟩ h
  obtain ⟨hl, x, -, -, tx, hle, s⟩ := ok1 m fd h
  refine .next (assert_of hl) ?_
  exact .next (s.shows w1 tx hle (Nat.zero_le _) (Nat.le_refl _) (by rw [hl]; rfl)) (.ok _)

example : Fine (MapTests.readMax docTab ⟨.w64, true⟩ (docDir DocMap.about) "data") :=
  C164_read_max docTab (docDir_wf _) (docDir_has _)

example : ended (MapTests.readMax docTab ⟨.w64, true⟩ (docDir DocMap.about) "data") = true := by
  decide +kernel

/-- C164: `read_exact`. -/
theorem C164_read_exact (tab : SysTable) (w : Wf t k) (has : FileHas k path DocMap.about) :
    Fine (MapTests.readExact tab t k path) := by
  obtain ⟨k1, r1, e1, w1, -, er1, ok1⟩ := openedAs tab w (o := (Options.new.setOffset 29).setLen (.exact 30))
    ⟨trivial, lim_small, lim_small⟩ (.inl has) lim_small rfl (by decide) rfl (size := 67) (n := 30)
    (new := DocMap.about) rfl (by show 29 + 30 ≤ 67; decide) rfl rfl
  refine .ask e1 er1 ?_
  rintro ⟨m, fd⟩ h
  obtain ⟨hl, x, -, -, tx, hle, s⟩ := ok1 m fd h
  refine .next (assert_of hl) ?_
  exact .next (s.shows w1 tx hle (Nat.zero_le _) (Nat.le_refl _) (by rw [hl]; rfl)) (.ok _)

example : Fine (MapTests.readExact docTab ⟨.w64, true⟩ (docDir DocMap.about) "data") :=
  C164_read_exact docTab (docDir_wf _) (docDir_has _)

example : ended (MapTests.readExact docTab ⟨.w64, true⟩ (docDir DocMap.about) "data") = true := by
  decide +kernel

/-- C164: `copy`. -/
theorem C164_copy (tab : SysTable) (w : Wf t k) (has : FileHas k path DocMap.about) :
    Fine (MapTests.copy tab t k path) := by
  obtain ⟨x, nm, tx⟩ := has
  obtain ⟨k1, r1, e1, w1, er1, ok1⟩ := openedCopyAt tab w nm tx lim_small
    (off := 29) (ext := .exact 30) rfl ⟨trivial, lim_small, lim_small⟩ (by show 29 + 30 ≤ 67; decide)
  refine .ask e1 er1 ?_
  rintro ⟨m, fd⟩ h
  obtain ⟨hl, pg1, -, tx1, ma, fr, -, -⟩ := ok1 m fd h
  have hl : m.len = 30 := hl
  have load : ∀ i, i < 30 → k1.load (m.ptr + i) = .ok (DocMap.fast.getD i 0) := by
    intro i hi
    obtain ⟨-, e, b1, b2⟩ := fr i (by omega)
    rw [Maps.load_fresh (by rw [pg1]; exact b1) b2 (ma i (by omega)) rfl, tx1.data _ (by show 29 + i < 67; omega)]
    congr 1
    have : ∀ i, i < 30 → DocMap.about.getD (29 + i) 0 = DocMap.fast.getD i 0 := by decide
    exact this i hi
  refine .next (assert_of hl) (.next (x := DocMap.shows k1 m 0 m.len DocMap.fast) (a := ()) ?_ ?_)
  · rw [DocMap.shows, if_pos ⟨Nat.zero_le _, Nat.le_refl _⟩]
    have := loadN_eq (k := k1) DocMap.fast (m.ptr + 0) load
    rw [show m.len - 0 = DocMap.fast.length from hl, this]
    simp only [bind, Except.bind, Doc.assert, decide_true, if_true]
  obtain ⟨k2, e2, st⟩ := storeN_maps DocMap.nice k1 0 w1 ma rfl rfl (by show 0 + 4 ≤ m.len; omega)
  refine .next (x := DocMap.put k1 m DocMap.nice) (a := k2)
    (by rw [DocMap.put, if_pos (by show 4 ≤ m.len; omega)]; exact e2) ?_
  refine .next (a := ()) ?_ (.ok _)
  rw [DocMap.shows, if_pos ⟨Nat.zero_le _, Nat.le_refl _⟩]
  have := loadN_eq (k := k2) (DocMap.nice ++ DocMap.fast.drop 4) (m.ptr + 0) (fun i hi => by
    have hi : i < 30 := hi
    rw [Nat.add_zero, st.load i (by omega), load i hi]
    have : ∀ i, i < 30 → (if 0 ≤ i ∧ i < 0 + DocMap.nice.length then DocMap.nice.getD (i - 0) 0 else DocMap.fast.getD i 0) =
      (DocMap.nice ++ DocMap.fast.drop 4).getD i 0 := by decide
    rw [← this i hi]
    split <;> rfl)
  rw [show m.len - 0 = (DocMap.nice ++ DocMap.fast.drop 4).length from hl, this]
  simp only [bind, Except.bind, Doc.assert, decide_true, if_true]

example : Fine (MapTests.copy docTab ⟨.w64, true⟩ (docDir DocMap.about) "data") :=
  C164_copy docTab (docDir_wf _) (docDir_has _)

example : ended (MapTests.copy docTab ⟨.w64, true⟩ (docDir DocMap.about) "data") = true := by
  decide +kernel

/-- C164: `write_into_mut`. -/
theorem C164_write_into_mut (tab : SysTable) (w : Wf t k) (has : FileHas k path DocMap.this) :
    Fine (MapTests.writeIntoMut tab t k path) := by
  obtain ⟨k1, r1, e1, w1, -, er1, ok1⟩ := openedAs tab w (o := Options.new.write.setResize (.exact 16))
    ⟨lim_small, trivial, t.lim_pos⟩ (.inl has) lim_small rfl (by decide) rfl (size := 16) (n := 16)
    (new := DocMap.this ++ [0, 0]) rfl (by show 0 ≤ 16; decide) rfl rfl
  refine .ask e1 er1 ?_
  rintro ⟨m, fd⟩ h
  obtain ⟨hl, x, nm, -, tx, hle, s⟩ := ok1 m fd h
  refine .next (assert_of hl.symm) ?_
  refine .next (s.shows w1 tx hle (Nat.zero_le _) (by omega) (by rfl)) ?_
  refine .next (s.shows w1 tx hle (Nat.zero_le _) (Nat.le_refl _) (by rw [hl]; rfl)) ?_
  obtain ⟨k2, r2, e2, w2, sb2, tx2, er2, ok2⟩ := s.intoMapMut w1
  refine .askConv e2 er2 ?_
  intro m2 h2
  obtain ⟨rfl, s2⟩ := ok2 m2 h2
  obtain ⟨k3, e3, w3, nm3, -, -, -, -, tx3, s3⟩ := s2.put w2 (tx2 _ tx) hle (new := DocMap.that)
    (by rw [hl]; decide)
  have hle3 : 0 + m2.len ≤ (((DocMap.this ++ [0, 0]).take 0 ++ DocMap.that ++
      (DocMap.this ++ [0, 0]).drop (0 + DocMap.that.length))).length := by rw [hl]; decide
  refine .next e3 ?_
  refine .next (s3.shows w3 tx3 hle3 (Nat.zero_le _) (by omega) (by rfl)) ?_
  refine .next (s3.shows w3 tx3 hle3 (Nat.zero_le _) (Nat.le_refl _) (by rw [hl]; rfl)) ?_
  obtain ⟨k5, r5, e5, w5, nm5, tx5, er5, ok5⟩ := s3.intoMapNames w3
  refine .askConv e5 er5 ?_
  intro m5 h5
  obtain ⟨rfl, s5⟩ := ok5 m5 h5
  refine .next (s5.shows w5 (tx5 _ tx3) hle3 (Nat.zero_le _) (by omega) (by rfl)) ?_
  refine .next (s5.shows w5 (tx5 _ tx3) hle3 (Nat.zero_le _) (Nat.le_refl _) (by simp only [hl]; rfl)) ?_
  obtain ⟨k6, r6, e6, w6, -, er6, ok6⟩ := openedAs tab w5 (o := Options.new)
    ⟨trivial, trivial, t.lim_pos⟩ (.inl ⟨x, by rw [nm5, nm3, sb2.names]; exact nm, tx5 _ tx3⟩) lim_small rfl
    (by decide) rfl (size := 16) (n := 16) (new := DocMap.that ++ DocMap.this.drop 4 ++ [0, 0]) rfl
    (by show 0 ≤ 16; decide) rfl rfl
  refine .ask e6 er6 ?_
  rintro ⟨m', fd'⟩ h'
  obtain ⟨hl', x', -, -, tx', hle', s'⟩ := ok6 m' fd' h'
  refine .next (assert_of hl'.symm) ?_
  refine .next (s'.shows w6 tx' hle' (Nat.zero_le _) (by omega) (by rfl)) ?_
  exact .next (s'.shows w6 tx' hle' (Nat.zero_le _) (Nat.le_refl _) (by rw [hl']; rfl)) (.ok _)

example : Fine (MapTests.writeIntoMut docTab ⟨.w64, true⟩ (docDir DocMap.this) "data") :=
  C164_write_into_mut docTab (docDir_wf _) (docDir_has _)

example : ended (MapTests.writeIntoMut docTab ⟨.w64, true⟩ (docDir DocMap.this) "data") = true := by
  decide +kernel

/-- C164: `truncate`. -/
theorem C164_truncate (tab : SysTable) (w : Wf t k) (has : FileHas k path DocMap.this) :
    Fine (MapTests.truncate tab t k path) := by
  obtain ⟨k1, r1, e1, w1, -, er1, ok1⟩ := openedAs tab w
    (o := (Options.new.write.setTruncate true).setResize (.exact 16))
    ⟨lim_small, trivial, t.lim_pos⟩ (.inl has) lim_small rfl (by decide) rfl (size := 16) (n := 16)
    (new := List.replicate 16 0) rfl (by show 0 ≤ 16; decide) rfl rfl
  refine .ask e1 er1 ?_
  rintro ⟨m, fd⟩ h
  obtain ⟨hl, x, -, -, tx, hle, s⟩ := ok1 m fd h
  refine .next (assert_of hl.symm) ?_
  exact .next (s.shows w1 tx hle (Nat.zero_le _) (Nat.le_refl _) (by rw [hl]; rfl)) (.ok _)

example : Fine (MapTests.truncate docTab ⟨.w64, true⟩ (docDir DocMap.this) "data") :=
  C164_truncate docTab (docDir_wf _) (docDir_has _)

example : ended (MapTests.truncate docTab ⟨.w64, true⟩ (docDir DocMap.this) "data") = true := by
  decide +kernel

/-- C164: `volatile`.  Pages and the number 8 are multiples of the alignment of `u64`. -/
theorem C164_volatile (tab : SysTable) (abi : Abi) (w : Wf t k) {text : List Byte}
    (was : FileHas k path text ∨ k.names path = none) (small : text.length < t.lim)
    (page : abi.align .u64 ∣ k.page) (eight : abi.align .u64 ∣ 8) :
    Fine (MapTests.volatile tab t abi k path) := by
  have was' : ∃ text, FileWas k path text ∧ text.length < t.lim := by
    rcases was with h | h
    · exact ⟨text, .inl h, small⟩
    · exact ⟨[], .inr ⟨h, rfl⟩, t.lim_pos⟩
  obtain ⟨text, was, small⟩ := was'
  obtain ⟨k1, r1, e1, w1, pg1, er1, ok1⟩ := openedAs tab w
    (o := ((Options.newMut.write.setTruncate true).create true).setResize (.exact 16))
    ⟨lim_small, trivial, t.lim_pos⟩ was small rfl (by decide) rfl (size := 16) (n := 16)
    (new := List.replicate 16 0) rfl (by show 0 ≤ 16; decide) rfl rfl
  refine .ask e1 er1 ?_
  rintro ⟨m, fd⟩ h
  obtain ⟨hl, x, nm, -, tx, hle, s⟩ := ok1 m fd h
  have s : Sees t k1 m x 0 true := s
  refine .next (assert_of hl.symm) ?_
  have al0 := s.numAligned (i := 0) (by rw [pg1]; exact page) (Nat.dvd_zero _) (by omega)
  have al8 := s.numAligned (i := 8) (by rw [pg1]; exact page) eight (by omega)
  obtain ⟨v1, v2⟩ := s.pair w1 abi (z := []) (b := List.replicate 8 0) (c := List.replicate 8 0) (d := 0)
    tx rfl rfl rfl hl
  rw [decode_zeros] at v1 v2
  refine .next (MapTests.holds_ok al0 v1) (.next (MapTests.holds_ok al8 v2) ?_)
  obtain ⟨k2, k3, e2, e3, w3, nm3, pg3, tx3, s3⟩ := s.setPair w1 abi (z := []) (b := List.replicate 8 0)
    (c := List.replicate 8 0) (d := 0) tx rfl rfl rfl hl MapTests.one MapTests.two
  refine .next (by rw [volatile_write (s := m.span) al0]; exact e2)
    (.next (by rw [volatile_write (s := m.span) al8]; exact e3) ?_)
  obtain ⟨v1, v2⟩ := s3.pair w3 abi tx3 (d := 0) rfl (encode_length _ _ _) (encode_length _ _ _) hl
  rw [decode_encode _ _ _ (by decide)] at v1 v2
  refine .next (MapTests.holds_ok al0 v1) (.next (MapTests.holds_ok al8 v2) ?_)
  have done : ([] ++ abi.encode 8 MapTests.one ++ abi.encode 8 MapTests.two).length = 16 := by
    simp only [List.length_append, List.length_nil, encode_length]
  obtain ⟨k4, r4, e4, w4, pg4, er4, ok4⟩ := openedAs tab w3 (o := Options.new)
    ⟨trivial, trivial, t.lim_pos⟩ (.inl ⟨x, by rw [nm3]; exact nm, tx3⟩) (by rw [done]; exact lim_small) rfl
    (by decide) rfl (size := 16) (n := 16) done (by show 0 ≤ 16; decide) rfl (fitted_same _)
  refine .ask e4 er4 ?_
  rintro ⟨m', fd'⟩ h'
  obtain ⟨hl', x', nm', -, tx', hle', s'⟩ := ok4 m' fd' h'
  have s' : Sees t k4 m' x' 0 false := s'
  obtain ⟨v1, v2⟩ := s'.pair w4 abi tx' (d := 0) rfl (encode_length _ _ _) (encode_length _ _ _) hl'
  rw [decode_encode _ _ _ (by decide)] at v1 v2
  have al0' := s'.numAligned (i := 0) (by rw [pg4, pg3, pg1]; exact page) (Nat.dvd_zero _) (by omega)
  have al8' := s'.numAligned (i := 8) (by rw [pg4, pg3, pg1]; exact page) eight (by omega)
  refine .next (assert_of hl'.symm) ?_
  exact .next (MapTests.holds_ok al0' v1) (.next (MapTests.holds_ok al8' v2) (.ok _))

example : Fine (MapTests.volatile docTab ⟨.w64, true⟩ ⟨true, fun _ => 8⟩ (docDir []) "new") :=
  C164_volatile docTab _ (docDir_wf _) (text := []) (.inr (docDir_new _)) (by decide) (by decide) (by decide)

example : ended (MapTests.volatile docTab ⟨.w64, true⟩ ⟨true, fun _ => 8⟩ (docDir []) "new") = true := by
  decide +kernel

example : ended (MapTests.volatile docTab ⟨.w32, true⟩ ⟨false, fun _ => 4⟩ (docDir []) "new") = true := by
  decide +kernel

/-- C164: `unaligned`. -/
theorem C164_unaligned (tab : SysTable) (abi : Abi) (w : Wf t k) {text : List Byte}
    (was : FileHas k path text ∨ k.names path = none) (small : text.length < t.lim) :
    Fine (MapTests.unaligned tab t abi k path) := by
  have was' : ∃ text, FileWas k path text ∧ text.length < t.lim := by
    rcases was with h | h
    · exact ⟨text, .inl h, small⟩
    · exact ⟨[], .inr ⟨h, rfl⟩, t.lim_pos⟩
  obtain ⟨text, was, small⟩ := was'
  obtain ⟨k1, r1, e1, w1, pg1, er1, ok1⟩ := openedAs tab w
    (o := ((Options.newMut.write.setTruncate true).create true).setResize (.exact 17))
    ⟨lim_small, trivial, t.lim_pos⟩ was small rfl (by decide) rfl (size := 17) (n := 17)
    (new := List.replicate 17 0) rfl (by show 0 ≤ 17; decide) rfl rfl
  refine .ask e1 er1 ?_
  rintro ⟨m, fd⟩ h
  obtain ⟨hl, x, nm, -, tx, hle, s⟩ := ok1 m fd h
  have s : Sees t k1 m x 0 true := s
  refine .next (assert_of hl.symm) ?_
  obtain ⟨v1, v2⟩ := s.pair w1 abi (z := [0]) (b := List.replicate 8 0) (c := List.replicate 8 0) (d := 1)
    tx rfl rfl rfl hl
  rw [decode_zeros] at v1 v2
  refine .next (MapTests.anywhere_ok v1) (.next (MapTests.anywhere_ok v2) ?_)
  obtain ⟨k2, k3, e2, e3, w3, nm3, pg3, tx3, s3⟩ := s.setPair w1 abi (z := [0]) (b := List.replicate 8 0)
    (c := List.replicate 8 0) (d := 1) tx rfl rfl rfl hl MapTests.one MapTests.two
  refine .next e2 (.next e3 ?_)
  obtain ⟨v1, v2⟩ := s3.pair w3 abi tx3 (d := 1) rfl (encode_length _ _ _) (encode_length _ _ _) hl
  rw [decode_encode _ _ _ (by decide)] at v1 v2
  refine .next (MapTests.anywhere_ok v1) (.next (MapTests.anywhere_ok v2) ?_)
  have done : ([0] ++ abi.encode 8 MapTests.one ++ abi.encode 8 MapTests.two).length = 17 := by
    simp only [List.length_append, List.length_singleton, encode_length]
  obtain ⟨k4, r4, e4, w4, pg4, er4, ok4⟩ := openedAs tab w3 (o := Options.new)
    ⟨trivial, trivial, t.lim_pos⟩ (.inl ⟨x, by rw [nm3]; exact nm, tx3⟩) (by rw [done]; exact lim_small) rfl
    (by decide) rfl (size := 17) (n := 17) done (by show 0 ≤ 17; decide) rfl (fitted_same _)
  refine .ask e4 er4 ?_
  rintro ⟨m', fd'⟩ h'
  obtain ⟨hl', x', nm', -, tx', hle', s'⟩ := ok4 m' fd' h'
  have s' : Sees t k4 m' x' 0 false := s'
  obtain ⟨v1, v2⟩ := s'.pair w4 abi tx' (d := 1) rfl (encode_length _ _ _) (encode_length _ _ _) hl'
  rw [decode_encode _ _ _ (by decide)] at v1 v2
  refine .next (assert_of hl'.symm) ?_
  exact .next (MapTests.anywhere_ok v1) (.next (MapTests.anywhere_ok v2) (.ok _))

example : Fine (MapTests.unaligned docTab ⟨.w64, true⟩ ⟨true, fun _ => 8⟩ (docDir []) "new") :=
  C164_unaligned docTab _ (docDir_wf _) (text := []) (.inr (docDir_new _)) (by decide)

example : ended (MapTests.unaligned docTab ⟨.w64, true⟩ ⟨true, fun _ => 8⟩ (docDir []) "new") = true := by
  decide +kernel

end Vmap
