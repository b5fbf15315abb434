import Verif.Proofs.DocMap
/-
C157: the examples in the documentation of maps.
-/
namespace Vmap
open Kernel Spec

variable {t : Target} {k : Kernel} {path : String}

/-- C157: two regions of one file. -/
theorem C157_regions (tab : SysTable) (w : Wf t k) (has : FileHas k path DocMap.this) :
    Fine (DocMap.regions tab t k path) := by
  obtain ⟨k1, r1, e1, w1, -, er1, ok1⟩ := openedAs tab w (o := Options.new.setLen (.exact 4))
    ⟨trivial, lim_small, t.lim_pos⟩ (.inl has) lim_small rfl (by decide) rfl (size := 14) (n := 4)
    (new := DocMap.this) rfl (by show 0 + 4 ≤ 14; decide) rfl rfl
  refine .ask e1 er1 ?_
  rintro ⟨m, fd⟩ h
  obtain ⟨hl, x, -, hfd, tx, hle, s⟩ := ok1 m fd h
  refine .next (s.shows w1 tx hle (Nat.zero_le _) (Nat.le_refl _) (by rw [hl]; rfl)) ?_
  obtain ⟨k2, r2, e2, w2, -, -, -, -, er2, no2, ok2⟩ := mapped tab w1
    (o := (Options.new.setOffset 10).setLen (.exact 4)) ⟨trivial, lim_small, lim_small⟩ hfd tx lim_small rfl
    (by decide)
  have hin : InRange (newLen false .endOf DocMap.this.length) 10 (.exact 4) := by
    show 10 + 4 ≤ 14; decide
  have e3 : ((Options.new.setOffset 10).setLen (.exact 4)).map tab t k1 fd = .ok (k2, match r2 with
      | .ok (some m) => .ok m
      | .ok none => .error (Error.input .mapFile .invalidRange)
      | .error e => .error e) := by
    simp only [Options.map, e2, bind, Except.bind]
    cases r2 with
    | error e => rfl
    | ok m => cases m <;> rfl
  refine .ask e3 ?_ ?_
  · intro e h
    cases r2 with
    | error e' => simp only at h; injection h with h; subst h; exact er2 _ rfl
    | ok m => cases m with
      | none => exact absurd hin (no2 rfl)
      | some m => cases h
  · intro m h
    cases r2 with
    | error e' => cases h
    | ok m' => cases m' with
      | none => cases h
      | some m' =>
        simp only at h; injection h with h; subst h
        obtain ⟨-, hl, tx, hle, s, -⟩ := ok2 m' rfl
        have hl : m'.len = 4 := hl
        refine .next (s.shows w2 tx hle (Nat.zero_le _) (Nat.le_refl _) (by rw [hl]; rfl)) ?_
        exact .ok _

example : Fine (DocMap.regions docTab ⟨.w64, true⟩ (docDir DocMap.this) "data") :=
  C157_regions docTab (docDir_wf _) (docDir_has _)

example : ended (DocMap.regions docTab ⟨.w64, true⟩ (docDir DocMap.this) "data") = true := by
  decide +kernel

/-- C157: changing a file through a map. -/
theorem C157_changes (tab : SysTable) (w : Wf t k) (has : FileHas k path DocMap.this) :
    Fine (DocMap.changes tab t k path) := by
  obtain ⟨k1, r1, e1, w1, -, er1, ok1⟩ := openedAs tab w (o := Options.new.write.setLen (.exact 14))
    ⟨trivial, lim_small, t.lim_pos⟩ (.inl has) lim_small rfl (by decide) rfl (size := 14) (n := 14)
    (new := DocMap.this) rfl (by show 0 + 14 ≤ 14; decide) rfl rfl
  refine .ask e1 er1 ?_
  rintro ⟨m, fd⟩ h
  obtain ⟨hl, x, -, hfd, tx, hle, s⟩ := ok1 m fd h
  refine .next (s.shows w1 tx hle (Nat.zero_le _) (Nat.le_refl _) (by rw [hl]; rfl)) ?_
  obtain ⟨k2, r2, e2, w2, -, tx2, er2, ok2⟩ := s.intoMapMut w1
  refine .askConv e2 er2 ?_
  intro m2 h2
  obtain ⟨rfl, s2⟩ := ok2 m2 h2
  obtain ⟨k3, e3, w3, -, -, -, -, -, tx3, s3⟩ := s2.put w2 (tx2 _ tx) hle (new := DocMap.that)
    (by rw [hl]; decide)
  refine .next e3 ?_
  obtain ⟨k4, r4, e4, w4, s4, tx4, er4⟩ := s3.flush w3 .sync
  refine .ask e4 er4 ?_
  intro _ _
  obtain ⟨k5, r5, e5, w5, tx5, er5, ok5⟩ := s4.intoMap w4
  refine .askConv e5 er5 ?_
  intro m5 h5
  obtain ⟨rfl, s5⟩ := ok5 m5 h5
  refine .next (s5.shows w5 (tx5 _ (tx4 _ tx3)) (by rw [hl]; decide) (Nat.zero_le _) (Nat.le_refl _)
    (by simp only [hl]; rfl)) ?_
  exact .ok _

example : Fine (DocMap.changes docTab ⟨.w64, true⟩ (docDir DocMap.this) "data") :=
  C157_changes docTab (docDir_wf _) (docDir_has _)

example : ended (DocMap.changes docTab ⟨.w64, true⟩ (docDir DocMap.this) "data") = true := by
  decide +kernel

/-- C157: `Map`. -/
theorem C157_map_type (tab : SysTable) (w : Wf t k) (has : FileHas k path DocMap.about) :
    Fine (DocMap.mapType tab t k path) := by
  obtain ⟨k1, r1, e1, w1, -, er1, ok1⟩ := openedAs tab w (o := (Options.new.setOffset 29).setLen (.exact 30))
    ⟨trivial, lim_small, lim_small⟩ (.inl has) lim_small rfl (by decide) rfl (size := 67) (n := 30)
    (new := DocMap.about) rfl (by show 29 + 30 ≤ 67; decide) rfl rfl
  refine .ask e1 er1 ?_
  rintro ⟨m, fd⟩ h
  obtain ⟨hl, x, -, hfd, tx, hle, s⟩ := ok1 m fd h
  obtain ⟨k2, r2, e2, w2, s2, tx2, er2⟩ := s.advise w1 (adv := .sequential) (by decide)
  refine .ask e2 er2 ?_
  intro _ _
  refine .next (s2.shows w2 (tx2 _ tx) hle (Nat.zero_le _) (Nat.le_refl _) (by rw [hl]; rfl)) ?_
  refine .next (s2.shows w2 (tx2 _ tx) hle (by decide) (by rw [hl]; decide) rfl) ?_
  exact .ok _

example : Fine (DocMap.mapType docTab ⟨.w64, true⟩ (docDir DocMap.about) "data") :=
  C157_map_type docTab (docDir_wf _) (docDir_has _)

example : ended (DocMap.mapType docTab ⟨.w64, true⟩ (docDir DocMap.about) "data") = true := by
  decide +kernel

/-- C157: `Map::with_options`. -/
theorem C157_with_options (tab : SysTable) (w : Wf t k) (has : FileHas k path DocMap.about) :
    Fine (DocMap.withOptions tab t k path) := by
  obtain ⟨k1, r1, e1, w1, -, er1, ok1⟩ := openedAs tab w (o := (Options.new.setOffset 29).setLen (.exact 30))
    ⟨trivial, lim_small, lim_small⟩ (.inl has) lim_small rfl (by decide) rfl (size := 67) (n := 30)
    (new := DocMap.about) rfl (by show 29 + 30 ≤ 67; decide) rfl rfl
  refine .ask e1 er1 ?_
  rintro ⟨m, fd⟩ h
  obtain ⟨hl, x, -, hfd, tx, hle, s⟩ := ok1 m fd h
  refine .next (s.shows w1 tx hle (Nat.zero_le _) (Nat.le_refl _) (by rw [hl]; rfl)) ?_
  exact .ok _

example : Fine (DocMap.withOptions docTab ⟨.w64, true⟩ (docDir DocMap.about) "data") :=
  C157_with_options docTab (docDir_wf _) (docDir_has _)

example : ended (DocMap.withOptions docTab ⟨.w64, true⟩ (docDir DocMap.about) "data") = true := by
  decide +kernel

/-- C157: `Map::into_map_mut`. -/
theorem C157_into_map_mut (tab : SysTable) (w : Wf t k) (has : FileHas k path DocMap.this) :
    Fine (DocMap.intoMapMut tab t k path) := by
  obtain ⟨k1, r1, e1, w1, -, er1, ok1⟩ := openedAs tab w (o := Options.new.write.setLen (.exact 14))
    ⟨trivial, lim_small, t.lim_pos⟩ (.inl has) lim_small rfl (by decide) rfl (size := 14) (n := 14)
    (new := DocMap.this) rfl (by show 0 + 14 ≤ 14; decide) rfl rfl
  refine .ask e1 er1 ?_
  rintro ⟨m, fd⟩ h
  obtain ⟨hl, x, -, hfd, tx, hle, s⟩ := ok1 m fd h
  refine .next (s.shows w1 tx hle (Nat.zero_le _) (Nat.le_refl _) (by rw [hl]; rfl)) ?_
  obtain ⟨k2, r2, e2, w2, -, tx2, er2, ok2⟩ := s.intoMapMut w1
  refine .askConv e2 er2 ?_
  intro m2 h2
  obtain ⟨rfl, s2⟩ := ok2 m2 h2
  obtain ⟨k3, e3, w3, -, -, -, -, -, tx3, s3⟩ := s2.put w2 (tx2 _ tx) hle (new := DocMap.that)
    (by rw [hl]; decide)
  refine .next e3 ?_
  refine .next (s3.shows w3 tx3 (by rw [hl]; decide) (Nat.zero_le _) (Nat.le_refl _) (by rw [hl]; rfl)) ?_
  exact .ok _

example : Fine (DocMap.intoMapMut docTab ⟨.w64, true⟩ (docDir DocMap.this) "data") :=
  C157_into_map_mut docTab (docDir_wf _) (docDir_has _)

example : ended (DocMap.intoMapMut docTab ⟨.w64, true⟩ (docDir DocMap.this) "data") = true := by
  decide +kernel

/-- C157: `MapMut::with_options`. -/
theorem C157_with_options_mut (tab : SysTable) (w : Wf t k) (has : FileHas k path DocMap.about) :
    Fine (DocMap.withOptionsMut tab t k path) := by
  obtain ⟨k1, r1, e1, w1, -, er1, ok1⟩ := openedAs tab w
    (o := (Options.newMut.setOffset 29).setLen (.exact 30))
    ⟨trivial, lim_small, lim_small⟩ (.inl has) lim_small rfl (by decide) rfl (size := 67) (n := 30)
    (new := DocMap.about) rfl (by show 29 + 30 ≤ 67; decide) rfl rfl
  refine .ask e1 er1 ?_
  rintro ⟨m, fd⟩ h
  obtain ⟨hl, x, -, hfd, tx, hle, s⟩ := ok1 m fd h
  refine .next (s.shows w1 tx hle (Nat.zero_le _) (Nat.le_refl _) (by rw [hl]; rfl)) ?_
  obtain ⟨k3, e3, w3, -, -, -, -, -, tx3, s3⟩ := s.put w1 tx hle (new := DocMap.nice) (by rw [hl]; decide)
  refine .next e3 ?_
  obtain ⟨k4, r4, e4, w4, s4, tx4, -⟩ := s3.flushRange w3 (a := 0) (l := 4) (by rw [hl]; decide) .sync
  refine .next e4 ?_
  refine .next (s4.shows w4 (tx4 _ tx3) (by rw [hl]; decide) (Nat.zero_le _) (Nat.le_refl _)
    (by rw [hl]; rfl)) ?_
  exact .ok _

example : Fine (DocMap.withOptionsMut docTab ⟨.w64, true⟩ (docDir DocMap.about) "data") :=
  C157_with_options_mut docTab (docDir_wf _) (docDir_has _)

example : ended (DocMap.withOptionsMut docTab ⟨.w64, true⟩ (docDir DocMap.about) "data") = true := by
  decide +kernel

/-- C157: `MapMut::into_map`. -/
theorem C157_into_map (tab : SysTable) (w : Wf t k) (has : FileHas k path DocMap.this) :
    Fine (DocMap.intoMap tab t k path) := by
  obtain ⟨k1, r1, e1, w1, -, er1, ok1⟩ := openedAs tab w (o := Options.newMut.setLen (.exact 14))
    ⟨trivial, lim_small, t.lim_pos⟩ (.inl has) lim_small rfl (by decide) rfl (size := 14) (n := 14)
    (new := DocMap.this) rfl (by show 0 + 14 ≤ 14; decide) rfl rfl
  refine .ask e1 er1 ?_
  rintro ⟨m, fd⟩ h
  obtain ⟨hl, x, -, hfd, tx, hle, s⟩ := ok1 m fd h
  refine .next (s.shows w1 tx hle (Nat.zero_le _) (Nat.le_refl _) (by rw [hl]; rfl)) ?_
  obtain ⟨k3, e3, w3, -, -, -, -, -, tx3, s3⟩ := s.put w1 tx hle (new := DocMap.that) (by rw [hl]; decide)
  refine .next e3 ?_
  obtain ⟨k5, r5, e5, w5, tx5, er5, ok5⟩ := s3.intoMap w3
  refine .askConv e5 er5 ?_
  intro m5 h5
  obtain ⟨rfl, s5⟩ := ok5 m5 h5
  refine .next (s5.shows w5 (tx5 _ tx3) (by rw [hl]; decide) (Nat.zero_le _) (Nat.le_refl _)
    (by simp only [hl]; rfl)) ?_
  exact .ok _

example : Fine (DocMap.intoMap docTab ⟨.w64, true⟩ (docDir DocMap.this) "data") :=
  C157_into_map docTab (docDir_wf _) (docDir_has _)

example : ended (DocMap.intoMap docTab ⟨.w64, true⟩ (docDir DocMap.this) "data") = true := by
  decide +kernel

/-- C157: `MapMut::new`. -/
theorem C157_new (w : Wf t k) (fits : 200 + k.page < t.lim) : Fine (DocMap.newMap t k) := by
  obtain ⟨k1, r1, e1, w1, -, er1, ok1⟩ := alloced w (o := Options.newMut.setLen (.min 200)) rfl rfl
    (by show 0 + 200 + k.page < t.lim; omega)
  refine .ask e1 er1 ?_
  intro m h
  obtain ⟨⟨hl, -⟩, x, text, tx, hle, s⟩ := ok1 m h
  obtain ⟨k3, e3, w3, -, -, -, -, -, tx3, s3⟩ := s.put w1 tx hle (new := DocMap.test)
    (by show 4 ≤ m.len; omega)
  refine .next e3 ?_
  have hlen : DocMap.test.length = 4 := rfl
  refine .next (s3.shows w3 tx3 ?_ (by decide) (by omega) ?_) ?_
  · simp only [List.length_append, List.length_take, List.length_drop, hlen]; omega
  · simp only [List.take_zero, List.nil_append, Nat.zero_add, List.drop_zero]
    rw [List.take_append_of_le_length (by decide)]; rfl
  · exact .ok _

example : Fine (DocMap.newMap ⟨.w64, true⟩ (demo 0)) :=
  C157_new (demo_wf 0) (by decide)

example : ended (DocMap.newMap ⟨.w64, true⟩ (demo 0)) = true := by
  decide +kernel

/-- C157: `Options::alloc`. -/
theorem C157_alloc (w : Wf t k) (fits : 500 + k.page < t.lim) : Fine (DocMap.alloc t k) := by
  obtain ⟨k1, r1, e1, w1, -, er1, ok1⟩ := alloced w (o := Options.newMut.setLen (.min 500)) rfl rfl
    (by show 0 + 500 + k.page < t.lim; omega)
  refine .ask e1 er1 ?_
  intro m h
  obtain ⟨⟨hl, -⟩, -⟩ := ok1 m h
  refine .next (a := ()) ?_ (.ok _)
  simp only [Doc.assert, ge_iff_le, hl, decide_true, if_true]

example : Fine (DocMap.alloc ⟨.w64, true⟩ (demo 0)) :=
  C157_alloc (demo_wf 0) (by decide)

example : ended (DocMap.alloc ⟨.w64, true⟩ (demo 0)) = true := by
  decide +kernel

/-- C157: `Options::create`. -/
theorem C157_create (tab : SysTable) (w : Wf t k) (new : k.names path = none) :
    Fine (DocMap.create tab t k path) := by
  obtain ⟨k1, r1, e1, w1, -, er1, ok1⟩ := openedAs tab w
    (o := (Options.newMut.create true).setResize (.exact 100))
    ⟨lim_small, trivial, t.lim_pos⟩ (.inr ⟨new, rfl⟩) lim_small rfl (by decide) rfl (size := 100) (n := 100)
    (new := List.replicate 100 0) rfl (by show 0 ≤ 100; decide) rfl rfl
  refine .ask e1 er1 ?_
  rintro ⟨m, fd⟩ h
  obtain ⟨hl, x, nm, hfd, tx, hle, s⟩ := ok1 m fd h
  refine .next (a := ()) (by rw [hl]; rfl) ?_
  refine .next (s.shows w1 tx hle (by decide) (by rw [hl]; decide) (by rfl)) ?_
  obtain ⟨k3, e3, w3, nm3, -, -, -, -, tx3, -⟩ := s.put w1 tx hle (new := DocMap.test) (by rw [hl]; decide)
  refine .next e3 ?_
  obtain ⟨k4, r4, e4, w4, -, er4, ok4⟩ := openedAs tab w3 (o := Options.new)
    ⟨trivial, trivial, t.lim_pos⟩ (.inl ⟨x, by rw [nm3]; exact nm, tx3⟩) lim_small rfl (by decide) rfl
    (size := 100) (n := 100) (new := DocMap.test ++ List.replicate 96 0) rfl (by show 0 ≤ 100; decide) rfl rfl
  refine .ask e4 er4 ?_
  rintro ⟨m', fd'⟩ h'
  obtain ⟨hl', x', -, -, tx', hle', s'⟩ := ok4 m' fd' h'
  refine .next (a := ()) (by rw [hl']; rfl) ?_
  refine .next (s'.shows w4 tx' hle' (by decide) (by rw [hl']; decide) (by rfl)) ?_
  exact .ok _

example : Fine (DocMap.create docTab ⟨.w64, true⟩ (docDir []) "new") :=
  C157_create docTab (docDir_wf _) (docDir_new _)

example : ended (DocMap.create docTab ⟨.w64, true⟩ (docDir []) "new") = true := by
  decide +kernel

/-- C157: `Options::create_new`. -/
theorem C157_create_new (tab : SysTable) (w : Wf t k) (new : k.names path = none) :
    Fine (DocMap.createNew tab t k path) := by
  obtain ⟨k1, r1, e1, w1, -, er1, ok1⟩ := openedAs tab w
    (o := (Options.newMut.createNew true).setResize (.exact 10))
    ⟨lim_small, trivial, t.lim_pos⟩ (.inr ⟨new, rfl⟩) lim_small rfl (by decide) rfl (size := 10) (n := 10)
    (new := List.replicate 10 0) rfl (by show 0 ≤ 10; decide) rfl rfl
  refine .ask e1 er1 ?_
  rintro ⟨m, fd⟩ h
  obtain ⟨hl, x, nm, -⟩ := ok1 m fd h
  refine .next (a := ()) (by rw [hl]; rfl) ?_
  obtain ⟨k2, e, h2⟩ := open_there (t := t) tab (o := Options.newMut.createNew true) nm rfl
  refine .next h2 ?_
  refine .next (a := ()) rfl ?_
  exact .ok _

example : Fine (DocMap.createNew docTab ⟨.w64, true⟩ (docDir []) "new") :=
  C157_create_new docTab (docDir_wf _) (docDir_new _)

example : ended (DocMap.createNew docTab ⟨.w64, true⟩ (docDir []) "new") = true := by
  decide +kernel

/-- C157: `Options::truncate`. -/
theorem C157_truncate (tab : SysTable) (w : Wf t k) {text : List Byte}
    (was : FileHas k path text ∨ k.names path = none) (small : text.length < t.lim) :
    Fine (DocMap.truncate tab t k path) := by
  have was' : ∃ text, FileWas k path text ∧ text.length < t.lim := by
    rcases was with h | h
    · exact ⟨text, .inl h, small⟩
    · exact ⟨[], .inr ⟨h, rfl⟩, t.lim_pos⟩
  obtain ⟨text, was, small⟩ := was'
  obtain ⟨k1, r1, e1, w1, -, er1, ok1⟩ := openedAs tab w
    (o := ((Options.newMut.create true).setTruncate true).setResize (.exact 4))
    ⟨lim_small, trivial, t.lim_pos⟩ was small rfl (by decide) rfl (size := 4) (n := 4)
    (new := List.replicate 4 0) rfl (by show 0 ≤ 4; decide) rfl rfl
  refine .ask e1 er1 ?_
  rintro ⟨m, fd⟩ h
  obtain ⟨hl, x, nm, hfd, tx, hle, s⟩ := ok1 m fd h
  refine .next (s.shows w1 tx hle (Nat.zero_le _) (Nat.le_refl _) (by rw [hl]; rfl)) ?_
  obtain ⟨k3, e3, w3, nm3, -, -, -, -, tx3, s3⟩ := s.put w1 tx hle (new := DocMap.test) (by rw [hl]; decide)
  refine .next e3 ?_
  refine .next (s3.shows w3 tx3 (by rw [hl]; decide) (Nat.zero_le _) (Nat.le_refl _) (by rw [hl]; rfl)) ?_
  obtain ⟨k5, e5, w5, -, nm5, sz5, dt5, -⟩ := s3.drop w3 (by omega) fd
  refine .next e5 ?_
  obtain ⟨k6, r6, e6, w6, -, er6, ok6⟩ := openedAs tab w5
    (o := (Options.newMut.setTruncate true).setResize (.exact 4))
    ⟨lim_small, trivial, t.lim_pos⟩ (.inl ⟨x, by rw [nm5, nm3]; exact nm, tx3.same sz5 dt5⟩) lim_small rfl
    (by decide) rfl (size := 4) (n := 4) (new := List.replicate 4 0) rfl (by show 0 ≤ 4; decide) rfl rfl
  refine .ask e6 er6 ?_
  rintro ⟨m', fd'⟩ h'
  obtain ⟨hl', x', -, -, tx', hle', s'⟩ := ok6 m' fd' h'
  refine .next (s'.shows w6 tx' hle' (Nat.zero_le _) (Nat.le_refl _) (by rw [hl']; rfl)) ?_
  exact .ok _

example : Fine (DocMap.truncate docTab ⟨.w64, true⟩ (docDir DocMap.this) "data") :=
  C157_truncate docTab (docDir_wf _) (.inl (docDir_has DocMap.this)) (by decide)

example : ended (DocMap.truncate docTab ⟨.w64, true⟩ (docDir DocMap.this) "data") = true := by
  decide +kernel

/-- C157: `Options::offset`. -/
theorem C157_offset (tab : SysTable) (w : Wf t k) (has : FileHas k path DocMap.this) :
    Fine (DocMap.offset tab t k path) := by
  obtain ⟨k1, r1, e1, w1, -, er1, ok1⟩ := openedAs tab w (o := Options.new.setOffset 10)
    ⟨trivial, trivial, lim_small⟩ (.inl has) lim_small rfl (by decide) rfl (size := 14) (n := 4)
    (new := DocMap.this) rfl (by show 10 ≤ 14; decide) rfl rfl
  refine .ask e1 er1 ?_
  rintro ⟨m, fd⟩ h
  obtain ⟨hl, x, -, -, tx, hle, s⟩ := ok1 m fd h
  refine .next (s.shows w1 tx hle (Nat.zero_le _) (Nat.le_refl _) (by rw [hl]; rfl)) ?_
  exact .ok _

example : Fine (DocMap.offset docTab ⟨.w64, true⟩ (docDir DocMap.this) "data") :=
  C157_offset docTab (docDir_wf _) (docDir_has _)

example : ended (DocMap.offset docTab ⟨.w64, true⟩ (docDir DocMap.this) "data") = true := by
  decide +kernel

/-- C157: `Options::len` with an exact length. -/
theorem C157_len_exact (tab : SysTable) (w : Wf t k) (has : FileHas k path DocMap.this) :
    Fine (DocMap.lenExact tab t k path) := by
  obtain ⟨k1, r1, e1, w1, -, er1, ok1⟩ := openedAs tab w (o := Options.new.setLen (.exact 4))
    ⟨trivial, lim_small, t.lim_pos⟩ (.inl has) lim_small rfl (by decide) rfl (size := 14) (n := 4)
    (new := DocMap.this) rfl (by show 0 + 4 ≤ 14; decide) rfl rfl
  refine .ask e1 er1 ?_
  rintro ⟨m, fd⟩ h
  obtain ⟨hl, x, -, -, tx, hle, s⟩ := ok1 m fd h
  refine .next (s.shows w1 tx hle (Nat.zero_le _) (Nat.le_refl _) (by rw [hl]; rfl)) ?_
  obtain ⟨k2, r2, e2, w2, -, er2, ok2⟩ := alloced w1 (o := Options.newMut.setLen (.exact 4)) rfl rfl
    (by show 0 + 4 < t.lim; exact lim_small)
  refine .ask e2 er2 ?_
  intro m' h'
  obtain ⟨hl', -⟩ := ok2 m' h'
  have hl' : m'.len = 4 := hl'
  refine .next (a := ()) (by rw [hl']; rfl) (.ok _)

example : Fine (DocMap.lenExact docTab ⟨.w64, true⟩ (docDir DocMap.this) "data") :=
  C157_len_exact docTab (docDir_wf _) (docDir_has _)

example : ended (DocMap.lenExact docTab ⟨.w64, true⟩ (docDir DocMap.this) "data") = true := by
  decide +kernel

/-- C157: `Options::len` with a minimum, on systems with pages of at least 2000 bytes. -/
theorem C157_len_min (tab : SysTable) (w : Wf t k) (has : FileHas k path DocMap.this)
    (page : 2000 ≤ k.page) (fits : 2000 + k.page < t.lim) : Fine (DocMap.lenMin tab t k path) := by
  obtain ⟨k1, r1, e1, w1, pg1, er1, ok1⟩ := openedAs tab w (o := (Options.new.setOffset 5).setLen (.min 4))
    ⟨trivial, lim_small, lim_small⟩ (.inl has) lim_small rfl (by decide) rfl (size := 14) (n := 9)
    (new := DocMap.this) rfl (by show 5 + 4 ≤ 14; decide) rfl rfl
  refine .ask e1 er1 ?_
  rintro ⟨m, fd⟩ h
  obtain ⟨hl, x, nm, -, tx, hle, s⟩ := ok1 m fd h
  refine .next (a := ()) (by rw [hl]; rfl) ?_
  refine .next (s.shows w1 tx hle (Nat.zero_le _) (Nat.le_refl _) (by rw [hl]; rfl)) ?_
  obtain ⟨k2, r2, e2, w2, pg2, -, er2, -, ok2⟩ := openedIf tab w1 (o := Options.new.setLen (.min 100))
    ⟨trivial, lim_small, t.lim_pos⟩ (.inl ⟨x, nm, tx⟩) lim_small rfl (by decide) rfl
  refine .ask e2 er2 ?_
  rintro ⟨m2, fd2⟩ h2
  have hnone : m2 = none := by
    cases m2 with
    | none => rfl
    | some m2 => exact absurd (ok2 m2 fd2 h2).1 (by show ¬ 0 + 100 ≤ 14; decide)
  subst hnone
  refine .next (a := ()) rfl ?_
  have hpg : k2.page = k.page := pg2.trans pg1
  obtain ⟨k3, r3, e3, w3, pg3, er3, ok3⟩ := alloced w2 (o := Options.newMut.setLen (.min 2000)) rfl rfl
    (by show 0 + 2000 + k2.page < t.lim; omega)
  refine .ask e3 er3 ?_
  intro m' h'
  obtain ⟨⟨a1, a2, a3⟩, -⟩ := ok3 m' h'
  have hlen : m'.len = k.page := by
    rw [hpg, Nat.zero_add] at a2
    rw [hpg] at a3
    obtain ⟨c, hc⟩ := a2
    rcases c with _ | _ | c
    · omega
    · omega
    · rw [Nat.mul_add, Nat.mul_add] at hc; omega
  obtain ⟨a, ha, hb⟩ := w.page
  have hsz : (Size.alloc k3).size t 1 = .ok k.page := by
    have := C03_size t a 1 (by omega) (by rw [Nat.one_mul, ← ha]; omega)
    rw [Nat.one_mul, ← ha] at this
    simp only [Size.alloc, Unix.systemInfo, pg3, hpg]
    exact this
  refine .next hsz ?_
  refine .next (a := ()) (by simp only [Doc.assert, hlen, decide_true, if_true]) (.ok _)

example : Fine (DocMap.lenMin docTab ⟨.w64, true⟩ (docDir DocMap.this) "data") :=
  C157_len_min docTab (docDir_wf _) (docDir_has _) (by decide) (by decide)

example : ended (DocMap.lenMin docTab ⟨.w64, true⟩ (docDir DocMap.this) "data") = true := by
  decide +kernel

/-- With smaller pages the last assertion of the documentation fails: two pages are allocated. -/
theorem C157_len_min_small_pages :
    DocMap.lenMin docTab ⟨.w64, true⟩ { docDir DocMap.this with page := 1024 } "data" = .error .panic := by
  rfl

/-- C157: `Options::len` with a maximum. -/
theorem C157_len_max (tab : SysTable) (w : Wf t k) (has : FileHas k path DocMap.this) :
    Fine (DocMap.lenMax tab t k path) := by
  obtain ⟨k1, r1, e1, w1, -, er1, ok1⟩ := openedAs tab w (o := (Options.new.setOffset 5).setLen (.max 100))
    ⟨trivial, lim_small, lim_small⟩ (.inl has) lim_small rfl (by decide) rfl (size := 14) (n := 9)
    (new := DocMap.this) rfl (by show 5 ≤ 14; decide) rfl rfl
  refine .ask e1 er1 ?_
  rintro ⟨m, fd⟩ h
  obtain ⟨hl, x, -, -, tx, hle, s⟩ := ok1 m fd h
  refine .next (a := ()) (by rw [hl]; rfl) ?_
  refine .next (s.shows w1 tx hle (Nat.zero_le _) (Nat.le_refl _) (by rw [hl]; rfl)) ?_
  obtain ⟨k2, r2, e2, w2, -, er2, ok2⟩ := alloced w1 (o := Options.newMut.setLen (.max 2000)) rfl rfl
    (by show 0 + 2000 < t.lim; exact lim_small)
  refine .ask e2 er2 ?_
  intro m' h'
  obtain ⟨hl', -⟩ := ok2 m' h'
  have hl' : m'.len = 2000 := hl'
  refine .next (a := ()) (by rw [hl']; rfl) (.ok _)

example : Fine (DocMap.lenMax docTab ⟨.w64, true⟩ (docDir DocMap.this) "data") :=
  C157_len_max docTab (docDir_wf _) (docDir_has _)

example : ended (DocMap.lenMax docTab ⟨.w64, true⟩ (docDir DocMap.this) "data") = true := by
  decide +kernel

/-- C157: `Options::resize` with an exact length. -/
theorem C157_resize_exact (tab : SysTable) (w : Wf t k) (has : FileHas k path DocMap.this) :
    Fine (DocMap.resizeExact tab t k path) := by
  obtain ⟨k1, r1, e1, w1, -, er1, ok1⟩ := openedAs tab w (o := Options.new.write.setResize (.exact 7))
    ⟨lim_small, trivial, t.lim_pos⟩ (.inl has) lim_small rfl (by decide) rfl (size := 7) (n := 7)
    (new := DocMap.this.take 7) rfl (by show 0 ≤ 7; decide) rfl rfl
  refine .ask e1 er1 ?_
  rintro ⟨m, fd⟩ h
  obtain ⟨hl, x, -, -, tx, hle, s⟩ := ok1 m fd h
  refine .next (a := ()) (by rw [hl]; rfl) ?_
  refine .next (s.shows w1 tx hle (Nat.zero_le _) (Nat.le_refl _) (by rw [hl]; rfl)) ?_
  exact .ok _

example : Fine (DocMap.resizeExact docTab ⟨.w64, true⟩ (docDir DocMap.this) "data") :=
  C157_resize_exact docTab (docDir_wf _) (docDir_has _)

example : ended (DocMap.resizeExact docTab ⟨.w64, true⟩ (docDir DocMap.this) "data") = true := by
  decide +kernel

/-- C157: `Options::resize` with a minimum: a longer file is kept, a shorter one (here "test", as in the
second half of the documentation, or any other) gets zeros. -/
theorem C157_resize_min (tab : SysTable) (w : Wf t k) {text : List Byte} (has : FileHas k path text)
    (small : text.length < t.lim) :
    Fine (DocMap.resizeMin tab t k path (text ++ List.replicate (7 - text.length) 0)) := by
  have hsz : newLen false (.min 7) text.length = (text ++ List.replicate (7 - text.length) 0).length := by
    simp only [List.length_append, List.length_replicate, newLen, Bool.false_eq_true, if_false]
    show max 7 text.length = _
    omega
  have hfit : fitted false (.min 7) text = text ++ List.replicate (7 - text.length) 0 := by
    unfold fitted
    rw [hsz]
    simp only [Bool.false_eq_true, if_false, List.length_append, List.length_replicate]
    rw [List.take_of_length_le (by omega), Nat.add_sub_cancel_left]
  obtain ⟨k1, r1, e1, w1, -, er1, ok1⟩ := openedAs tab w (o := Options.new.write.setResize (.min 7))
    ⟨lim_small, trivial, t.lim_pos⟩ (.inl has) small rfl (by decide) rfl hsz
    (by show 0 ≤ _; omega) rfl hfit
  refine .ask e1 er1 ?_
  rintro ⟨m, fd⟩ h
  obtain ⟨hl, x, -, -, tx, hle, s⟩ := ok1 m fd h
  have hl : m.len = (text ++ List.replicate (7 - text.length) 0).length := hl
  refine .next (a := ()) (by simp only [hl, Doc.assert, decide_true, if_true]) ?_
  refine .next (s.shows w1 tx hle (Nat.zero_le _) (Nat.le_refl _) ?_) ?_
  · rw [hl]
    show ((text ++ List.replicate (7 - text.length) 0).drop 0).take _ = _
    rw [List.drop_zero, Nat.sub_zero, List.take_length]
  · exact .ok _

example : Fine (DocMap.resizeMin docTab ⟨.w64, true⟩ (docDir DocMap.test) "data" (DocMap.test ++ [0, 0, 0])) :=
  C157_resize_min docTab (docDir_wf _) (docDir_has DocMap.test) (by decide)

example : ended (DocMap.resizeMin docTab ⟨.w64, true⟩ (docDir DocMap.test) "data" (DocMap.test ++ [0, 0, 0])) = true := by
  decide +kernel

/-- C157: `Options::resize` with a maximum: a longer file is cut, a shorter one kept. -/
theorem C157_resize_max (tab : SysTable) (w : Wf t k) {text : List Byte} (has : FileHas k path text)
    (small : text.length < t.lim) : Fine (DocMap.resizeMax tab t k path (text.take 7)) := by
  have hsz : newLen false (.max 7) text.length = (text.take 7).length := by
    simp only [List.length_take, newLen, Bool.false_eq_true, if_false]
  have hfit : fitted false (.max 7) text = text.take 7 := by
    unfold fitted
    rw [hsz]
    simp only [Bool.false_eq_true, if_false, List.length_take]
    rw [show min 7 text.length - text.length = 0 by omega, List.replicate_zero, List.append_nil]
    by_cases h : 7 ≤ text.length
    · rw [Nat.min_eq_left h]
    · rw [Nat.min_eq_right (by omega), List.take_length, List.take_of_length_le (by omega)]
  obtain ⟨k1, r1, e1, w1, -, er1, ok1⟩ := openedAs tab w (o := Options.new.write.setResize (.max 7))
    ⟨lim_small, trivial, t.lim_pos⟩ (.inl has) small rfl (by decide) rfl hsz
    (by show 0 ≤ _; omega) rfl hfit
  refine .ask e1 er1 ?_
  rintro ⟨m, fd⟩ h
  obtain ⟨hl, x, -, -, tx, hle, s⟩ := ok1 m fd h
  have hl : m.len = (text.take 7).length := hl
  refine .next (a := ()) (by simp only [hl, Doc.assert, decide_true, if_true]) ?_
  refine .next (s.shows w1 tx hle (Nat.zero_le _) (Nat.le_refl _) ?_) ?_
  · rw [hl]
    show ((text.take 7).drop 0).take _ = _
    rw [List.drop_zero, Nat.sub_zero, List.take_length]
  · exact .ok _

example : Fine (DocMap.resizeMax docTab ⟨.w64, true⟩ (docDir DocMap.this) "data" (DocMap.this.take 7)) :=
  C157_resize_max docTab (docDir_wf _) (docDir_has _) (by decide)

example : ended (DocMap.resizeMax docTab ⟨.w64, true⟩ (docDir DocMap.this) "data" (DocMap.this.take 7)) = true := by
  decide +kernel

end Vmap
