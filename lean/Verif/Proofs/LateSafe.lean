import Verif.Proofs.LateComm
import Verif.Props.ZeroCopy

/-!
# The communicator does not change what it is sending
-/

namespace FV3.Late
open FV3
variable {σ α A B : Type} [Memory σ α]

/-! ### Safe programs, step by step -/

/-- `SafeP` for programs with exceptions; `Q` is about normal termination. -/
def SafeM (c : LM σ α A) (own : Own) (m : σ) (P : List (Pend σ α))
    (Q : A → Own → σ → List (Pend σ α) → Prop) : Prop :=
  SafeP (c own) m P fun x m' P' => ∀ a, x.1 = .ok a → Q a x.2 m' P'

variable {own : Own} {m : σ} {P : List (Pend σ α)} {Q : A → Own → σ → List (Pend σ α) → Prop}
  {Q' : B → Own → σ → List (Pend σ α) → Prop}

theorem SafeM.bind {c : LM σ α A} {f : A → LM σ α B} (h : SafeM c own m P Q)
    (hf : ∀ a own m P, Q a own m P → SafeM (f a) own m P Q') : SafeM (c >>= f) own m P Q' := by
  refine SafeP.bind h fun x m P hx => ?_
  obtain ⟨x1, x2⟩ := x
  cases x1 with
  | ok a => exact hf a x2 m P (hx a rfl)
  | error e => intro a h; simp at h

theorem SafeM.mono {c : LM σ α A} {Q2 : A → Own → σ → List (Pend σ α) → Prop} (h : SafeM c own m P Q)
    (hf : ∀ a own m P, Q a own m P → Q2 a own m P) : SafeM c own m P Q2 :=
  SafeP.mono h fun x m P hx a ha => hf a x.2 m P (hx a ha)

theorem SafeM.pure {a : A} (h : Q a own m P) : SafeM (Pure.pure a) own m P Q := by
  intro b hb
  simp only [Except.ok.injEq] at hb
  subst hb; exact h

theorem SafeM.lift {x : Py A} (h : ∀ a, x = .ok a → Q a own m P) : SafeM (LM.lift x) own m P Q := h

theorem SafeM.raise {e : PyErr} : SafeM (LM.raise e) own m P Q := by
  intro a h; simp at h

theorem SafeM.getHaloTag {Q : Nat → Own → σ → List (Pend σ α) → Prop}
    (h : ∀ t own', own'.reqs = own.reqs → Q t own' m P) : SafeM getHaloTag own m P Q := by
  intro b hb
  simp only [Except.ok.injEq] at hb
  subst hb; exact h _ _ rfl

theorem SafeM.pack {view : σ → Py A} {Q : (σ → A) → Own → σ → List (Pend σ α) → Prop}
    (h : ∀ rd : σ → A, (∀ m' b, view m' = .ok b → rd m' = b) → Q rd own m P) :
    SafeM (LM.pack view) own m P Q := by
  unfold SafeM LM.pack
  simp only [SafeP]
  cases hv : view m with
  | error e => intro a h; simp at h
  | ok a =>
    intro b hb
    simp only [Except.ok.injEq] at hb
    subst hb
    refine h _ fun m' b hb => ?_
    simp only [hb]

theorem SafeM.isend {d : Int} {t : Nat} {rd : σ → NDArray α} {Q : SendReq → Own → σ → List (Pend σ α) → Prop}
    (h : ∀ i, Q ⟨d, t, i⟩ own m (⟨d, .halo t, i, rd, rd m⟩ :: P)) : SafeM (isend d t rd) own m P Q := by
  intro i b hb
  simp only [Except.ok.injEq] at hb
  subst hb; exact h i

theorem SafeM.recvInto {rq : RecvReq} {Q : Unit → Own → σ → List (Pend σ α) → Prop}
    (h : ∀ (a : NDArray α) m', Memory.store m rq.q rq.ix a = .ok m' → Kept P m' ∧ Q () own m' P) :
    SafeM (recvInto rq) own m P Q := by
  intro a
  refine ⟨fun m' hm => ⟨(h a m' hm).1, fun _ _ => (h a m' hm).2⟩, fun e _ b hb => ?_⟩
  simp at hb

theorem SafeM.awaitSend {sr : SendReq} {Q : Unit → Own → σ → List (Pend σ α) → Prop}
    (h : Q () own m (dropPend P sr.dst (.halo sr.tag) sr.idx)) : SafeM (awaitSend sr) own m P Q :=
  fun _ _ => h

theorem SafeM.forEach {f : A → LM σ α B} {l : List A} (I : List B → Own → σ → List (Pend σ α) → Prop)
    (h : ∀ a ∈ l, ∀ bs own m P, I bs own m P → SafeM (f a) own m P fun b own m P => I (bs ++ [b]) own m P)
    {bs : List B} (h0 : I bs own m P) :
    SafeM (LM.forEach f l) own m P fun cs own m P => I (bs ++ cs) own m P := by
  induction l generalizing bs own m P with
  | nil =>
    refine SafeM.pure ?_
    rw [List.append_nil]; exact h0
  | cons a l ih =>
    unfold LM.forEach
    refine (h a List.mem_cons_self bs own m P h0).bind fun b own m P hb => ?_
    refine (ih (fun a ha => h a (List.mem_cons_of_mem _ ha)) hb).bind fun cs own m P hc => ?_
    refine SafeM.pure ?_
    rw [List.append_assoc] at hc
    exact hc

theorem SafeM.quantity {own : Own} {m : Mem α} {P : List (Pend (Mem α) α)} {q : Nat} {Q : Quantity α → Own → Mem α → List (Pend (Mem α) α) → Prop} (h : Q (m q) own m P) :
    SafeM (LM.quantity q) own m P Q := by
  intro b hb
  simp only [Except.ok.injEq] at hb
  subst hb; exact h

/-! ### What is sent -/

variable {m : Mem α} {P : List (Pend (Mem α) α)} [Neg α]

/-- The view is one of those that the update sends. -/
def PendOf (l : Layout) (r : Int) (op : Op α) (p : Pend (Mem α) α) : Prop :=
  ∀ m m', SendsSame l r op m m' → (p.read m').Eqv (p.read m)

/-- The request is the one of that send. -/
def IsReq {σ : Type} (sr : SendReq) (p : Pend σ α) : Prop := p.dst = sr.dst ∧ p.tag = .halo sr.tag ∧ p.idx = sr.idx

omit [Neg α] in
theorem pyMap_forall₂ {A B C : Type} {f : A → Py B} {g : A → Py C} {R : B → C → Prop} {l : List A} {bs : List B}
    {cs : List C} (h1 : pyMap f l = .ok bs) (h2 : pyMap g l = .ok cs) (h : List.Forall₂ R bs cs) :
    ∀ a ∈ l, ∃ b c, f a = .ok b ∧ g a = .ok c ∧ R b c := by
  induction l generalizing bs cs with
  | nil => simp
  | cons a l ih =>
    simp only [pyMap] at h1 h2
    obtain ⟨b, hb, h1⟩ := bind_ok h1
    obtain ⟨bs', hbs, h1⟩ := bind_ok h1
    obtain ⟨c, hc, h2⟩ := bind_ok h2
    obtain ⟨cs', hcs, h2⟩ := bind_ok h2
    have e1 := pure_ok h1
    have e2 := pure_ok h2
    subst e1 e2
    cases h with
    | cons h h' =>
      intro a' ha'
      rcases List.mem_cons.1 ha' with rfl | ha'
      · exact ⟨b, c, hb, hc, h⟩
      · exact ih hbs hcs h' a' ha'

omit [Neg α] in
theorem forall₂_split {A B : Type} {R : A → B → Prop} {a a' : List A} {b b' : List B} (hl : a.length = b.length)
    (h : List.Forall₂ R (a ++ a') (b ++ b')) : List.Forall₂ R a b ∧ List.Forall₂ R a' b' := by
  induction a generalizing b with
  | nil =>
    cases b with
    | nil => exact ⟨.nil, h⟩
    | cons _ _ => simp at hl
  | cons x a ih =>
    cases b with
    | nil => simp at hl
    | cons y b =>
      cases h with
      | cons h1 h2 =>
        obtain ⟨h3, h4⟩ := ih (by simpa using hl) h2
        exact ⟨.cons h1 h3, h4⟩

omit [Neg α] in
theorem pyMap_flatten {A B C : Type} {f : A → Py (List B)} {g : A → Py (List C)} {R : B → C → Prop} {l : List A}
    {bs : List (List B)} {cs : List (List C)} (h1 : pyMap f l = .ok bs) (h2 : pyMap g l = .ok cs)
    (hl : ∀ a b c, f a = .ok b → g a = .ok c → b.length = c.length)
    (h : List.Forall₂ R bs.flatten cs.flatten) :
    ∀ a ∈ l, ∃ b c, f a = .ok b ∧ g a = .ok c ∧ List.Forall₂ R b c := by
  induction l generalizing bs cs with
  | nil => simp
  | cons a l ih =>
    simp only [pyMap] at h1 h2
    obtain ⟨b, hb, h1⟩ := bind_ok h1
    obtain ⟨bs', hbs, h1⟩ := bind_ok h1
    obtain ⟨c, hc, h2⟩ := bind_ok h2
    obtain ⟨cs', hcs, h2⟩ := bind_ok h2
    have e1 := pure_ok h1
    have e2 := pure_ok h2
    subst e1 e2
    simp only [List.flatten_cons] at h
    obtain ⟨h3, h4⟩ := forall₂_split (hl a b c hb hc) h
    intro a' ha'
    rcases List.mem_cons.1 ha' with rfl | ha'
    · exact ⟨b, c, hb, hc, h3⟩
    · exact ih hbs hcs h4 a' ha'

/-! ### Starting an update -/

/-- What is known after the sends of an update: nothing else has changed. -/
def Sent (l : Layout) (r : Int) (op : Op α) (reqs0 : List Request) (m0 : Mem α) (P0 : List (Pend (Mem α) α))
    (srs : List SendReq) (own : Own) (m : Mem α) (P : List (Pend (Mem α) α)) : Prop :=
  own.reqs = reqs0 ∧ m = m0 ∧ ∀ p ∈ P, p ∈ P0 ∨ PendOf l r op p ∧ (p.read m0).Eqv p.a ∧ ∃ sr ∈ srs, IsReq sr p

theorem safe_isendHalos {l : Layout} {r : Int} {q : Nat} {n : Int} {tag : Nat} (hn : n ≠ 0) {own : Own} :
    SafeM (isendHalos l r q n tag) own m P fun srs own' m' P' => Sent l r (.halo q n) own.reqs m P srs own' m' P' := by
  unfold isendHalos
  refine SafeM.bind (SafeM.lift (Q := fun bs own' m' P' => Cube.boundaries l r = .ok bs ∧ own' = own ∧ m' = m ∧ P' = P)
    fun bs hb => ⟨hb, rfl, rfl, rfl⟩) ?_
  rintro bs own' m' P' ⟨hb, rfl, rfl, rfl⟩
  refine SafeM.forEach (bs := []) (fun srs own m2 P2 => Sent l r (.halo q n) own'.reqs m' P' srs own m2 P2) ?_
    ⟨rfl, rfl, fun p hp => Or.inl hp⟩
  rintro b hbm srs own2 m2 P2 ⟨h1, rfl, h3⟩
  refine SafeM.bind (SafeM.pack (Q := fun rd own' m' P' => (own'.reqs = own2.reqs ∧ m' = m2 ∧ P' = P2) ∧ ∀ m' d,
    (do let data ← sendView (m' q) b.boundaryType n; rotateScalar data (m' q).dims (-b.rotations)) = Except.ok d →
      rd m' = d) fun rd hrd => ⟨⟨rfl, rfl, rfl⟩, hrd⟩) ?_
  rintro rd own3 m3 P3 ⟨⟨e1, rfl, rfl⟩, hrd⟩
  refine SafeM.isend fun i => ⟨e1.trans h1, rfl, fun p hp => ?_⟩
  rcases List.mem_cons.1 hp with rfl | hp
  · refine Or.inr ⟨fun ma mb hab => ?_, NDArray.Eqv.refl _, _, List.mem_append_right _ List.mem_cons_self, rfl, rfl, rfl⟩
    obtain ⟨o, o', ho, ho', hs⟩ := hab
    simp only [Op.out, if_neg hn, haloOut, hb] at ho ho'
    obtain ⟨x, x', hx, hx', -, -, hxe⟩ := pyMap_forall₂ ho ho' hs b hbm
    obtain ⟨d1, g1, hx⟩ := bind_ok hx
    obtain ⟨d2, g2, hx⟩ := bind_ok hx
    obtain ⟨d1', g1', hx'⟩ := bind_ok hx'
    obtain ⟨d2', g2', hx'⟩ := bind_ok hx'
    have e2 := pure_ok hx
    have e2' := pure_ok hx'
    subst e2 e2'
    have k1 : rd ma = d2 := hrd ma d2 (by rw [g1]; exact g2)
    have k2 : rd mb = d2' := hrd mb d2' (by rw [g1']; exact g2')
    show (rd mb).Eqv (rd ma)
    rw [k1, k2]
    exact hxe
  · rcases h3 p hp with h | ⟨h4, h5, sr, h6, h7⟩
    · exact Or.inl h
    · exact Or.inr ⟨h4, h5, sr, List.mem_append_left _ h6, h7⟩

theorem safe_isendVectorHalos {l : Layout} {r : Int} {x y : Nat} {n : Int} {tag1 tag2 : Nat} (hn : n ≠ 0) {own : Own} :
    SafeM (isendVectorHalos l r x y n tag1 tag2) own m P fun srs own' m' P' =>
      Sent l r (.vector x y n) own.reqs m P srs own' m' P' := by
  unfold isendVectorHalos
  refine SafeM.bind (SafeM.lift (Q := fun bs own' m' P' => Cube.boundaries l r = .ok bs ∧ own' = own ∧ m' = m ∧ P' = P)
    fun bs hb => ⟨hb, rfl, rfl, rfl⟩) ?_
  rintro bs own' m' P' ⟨hb, rfl, rfl, rfl⟩
  refine SafeM.bind (SafeM.forEach (bs := []) (fun srs own m2 P2 =>
    Sent l r (.vector x y n) own'.reqs m' P' srs.flatten own m2 P2) ?_ ⟨rfl, rfl, fun p hp => Or.inl hp⟩)
    fun rs own m P h => SafeM.pure h
  rintro b hbm srs own2 m2 P2 ⟨h1, rfl, h3⟩
  refine SafeM.bind (SafeM.pack (Q := fun rd own' m' P' => (own'.reqs = own2.reqs ∧ m' = m2 ∧ P' = P2) ∧ ∀ m' d,
    (do let xData ← sendView (m' x) b.boundaryType n
        let yData ← sendView (m' y) b.boundaryType n
        rotateVector xData yData (-b.rotations) (m' x).dims) = Except.ok d →
      rd m' = d) fun rd hrd => ⟨⟨rfl, rfl, rfl⟩, hrd⟩) ?_
  rintro rd own3 m3 P3 ⟨⟨e1, rfl, rfl⟩, hrd⟩
  refine SafeM.bind (SafeM.isend (Q := fun sr own' m' P' => own'.reqs = own3.reqs ∧ m' = m3 ∧
    ∃ i, sr = ⟨b.toRank, tag1, i⟩ ∧ P' = ⟨b.toRank, .halo tag1, i, fun m => (rd m).1, (rd m3).1⟩ :: P3)
    fun i => ⟨rfl, rfl, i, rfl, rfl⟩) ?_
  rintro s1 own4 m4 P4 ⟨e4, rfl, i, rfl, rfl⟩
  refine SafeM.bind (SafeM.isend (Q := fun sr own' m' P' => own'.reqs = own4.reqs ∧ m' = m4 ∧
    ∃ j, sr = ⟨b.toRank, tag2, j⟩ ∧ P' = ⟨b.toRank, .halo tag2, j, fun m => (rd m).2, (rd m4).2⟩ ::
      ⟨b.toRank, .halo tag1, i, fun m => (rd m).1, (rd m4).1⟩ :: P3)
    fun i => ⟨rfl, rfl, i, rfl, rfl⟩) ?_
  rintro s2 own5 m5 P5 ⟨e5, rfl, j, rfl, rfl⟩
  refine SafeM.pure ⟨e5.trans (e4.trans (e1.trans h1)), rfl, fun p hp => ?_⟩
  have key : ∀ ma mb, SendsSame l r (.vector x y n) ma mb →
      (rd mb).1.Eqv (rd ma).1 ∧ (rd mb).2.Eqv (rd ma).2 := by
    intro ma mb hab
    obtain ⟨o, o', ho, ho', hs⟩ := hab
    simp only [Op.out, if_neg hn, vectorOut, hb] at ho ho'
    obtain ⟨ps, hps, ho⟩ := bind_ok (show (pyMap _ bs >>= fun ps => Pure.pure ps.flatten) = Except.ok o from ho)
    obtain ⟨ps', hps', ho'⟩ := bind_ok (show (pyMap _ bs >>= fun ps => Pure.pure ps.flatten) = Except.ok o' from ho')
    have f1 := pure_ok ho
    have f2 := pure_ok ho'
    subst f1 f2
    obtain ⟨u, u', hu, hu', hrel⟩ := pyMap_flatten hps hps' (by
      intro b u u' hu hu'
      obtain ⟨_, -, hu⟩ := bind_ok hu
      obtain ⟨_, -, hu⟩ := bind_ok hu
      obtain ⟨_, -, hu⟩ := bind_ok hu
      obtain ⟨_, -, hu'⟩ := bind_ok hu'
      obtain ⟨_, -, hu'⟩ := bind_ok hu'
      obtain ⟨_, -, hu'⟩ := bind_ok hu'
      rw [← pure_ok hu, ← pure_ok hu']; rfl) hs b hbm
    obtain ⟨d1, g1, hu⟩ := bind_ok hu
    obtain ⟨d2, g2, hu⟩ := bind_ok hu
    obtain ⟨d3, g3, hu⟩ := bind_ok hu
    obtain ⟨d1', g1', hu'⟩ := bind_ok hu'
    obtain ⟨d2', g2', hu'⟩ := bind_ok hu'
    obtain ⟨d3', g3', hu'⟩ := bind_ok hu'
    have e2 := pure_ok hu
    have e2' := pure_ok hu'
    subst e2 e2'
    rw [hrd ma d3 (by rw [g1]; simp only [Bind.bind, Except.bind]; rw [g2]; exact g3),
      hrd mb d3' (by rw [g1']; simp only [Bind.bind, Except.bind]; rw [g2']; exact g3')]
    cases hrel with
    | cons r1 r2 => cases r2 with
      | cons r2 _ => exact ⟨r1.2.2, r2.2.2⟩
  have hfl : (srs ++ [[(⟨b.toRank, tag1, i⟩ : SendReq), ⟨b.toRank, tag2, j⟩]]).flatten =
      srs.flatten ++ [⟨b.toRank, tag1, i⟩, ⟨b.toRank, tag2, j⟩] := by simp
  rcases List.mem_cons.1 hp with rfl | hp
  · exact Or.inr ⟨fun ma mb hab => (key ma mb hab).2, NDArray.Eqv.refl _, ⟨b.toRank, tag2, j⟩,
      by rw [hfl]; simp, rfl, rfl, rfl⟩
  · rcases List.mem_cons.1 hp with rfl | hp
    · exact Or.inr ⟨fun ma mb hab => (key ma mb hab).1, NDArray.Eqv.refl _, ⟨b.toRank, tag1, i⟩,
        by rw [hfl]; simp, rfl, rfl, rfl⟩
    · rcases h3 p hp with h | ⟨h4, h5, sr, h6, h7⟩
      · exact Or.inl h
      · exact Or.inr ⟨h4, h5, sr, by rw [hfl]; exact List.mem_append_left _ h6, h7⟩

theorem safe_isendSharedBoundary {l : Layout} {r : Int} {x y : Nat} {tag : Nat} {own : Own} :
    SafeM (isendSharedBoundary l r x y tag) own m P fun srs own' m' P' =>
      Sent l r (.sync x y) own.reqs m P srs own' m' P' := by
  unfold isendSharedBoundary
  refine SafeM.bind (SafeM.lift (Q := fun b own' m' P' => Cube.boundaryAt l r .south = .ok b ∧ own' = own ∧ m' = m ∧ P' = P)
    fun bs hb => ⟨hb, rfl, rfl, rfl⟩) ?_
  rintro south own' m' P' ⟨hb1, rfl, rfl, rfl⟩
  refine SafeM.bind (SafeM.lift (Q := fun b own'' m'' P'' => Cube.boundaryAt l r .west = .ok b ∧ own'' = own' ∧ m'' = m' ∧ P'' = P')
    fun bs hb => ⟨hb, rfl, rfl, rfl⟩) ?_
  rintro west own' m' P' ⟨hb2, rfl, rfl, rfl⟩
  refine SafeM.bind (SafeM.pack (Q := fun rd own'' m'' P'' => (own'' = own' ∧ m'' = m' ∧ P'' = P') ∧ ∀ m' d,
    southEdgeData (m' x) south = Except.ok d → rd m' = d) fun rd hrd => ⟨⟨rfl, rfl, rfl⟩, hrd⟩) ?_
  rintro rd1 own' m' P' ⟨⟨rfl, rfl, rfl⟩, hrd1⟩
  refine SafeM.bind (SafeM.pack (Q := fun rd own'' m'' P'' => (own'' = own' ∧ m'' = m' ∧ P'' = P') ∧ ∀ m' d,
    westEdgeData (m' y) west = Except.ok d → rd m' = d) fun rd hrd => ⟨⟨rfl, rfl, rfl⟩, hrd⟩) ?_
  rintro rd2 own' m' P' ⟨⟨rfl, rfl, rfl⟩, hrd2⟩
  refine SafeM.bind (SafeM.isend (Q := fun sr own'' m'' P'' => own''.reqs = own'.reqs ∧ m'' = m' ∧
    ∃ i, sr = ⟨south.toRank, tag, i⟩ ∧ P'' = ⟨south.toRank, .halo tag, i, rd1, rd1 m'⟩ :: P')
    fun i => ⟨rfl, rfl, i, rfl, rfl⟩) ?_
  rintro s1 own4 m4 P4 ⟨e4, rfl, i, rfl, rfl⟩
  refine SafeM.bind (SafeM.isend (Q := fun sr own'' m'' P'' => own''.reqs = own4.reqs ∧ m'' = m4 ∧
    ∃ j, sr = ⟨west.toRank, tag, j⟩ ∧ P'' = ⟨west.toRank, .halo tag, j, rd2, rd2 m4⟩ ::
      ⟨south.toRank, .halo tag, i, rd1, rd1 m4⟩ :: P')
    fun i => ⟨rfl, rfl, i, rfl, rfl⟩) ?_
  rintro s2 own5 m5 P5 ⟨e5, rfl, j, rfl, rfl⟩
  refine SafeM.pure ⟨e5.trans e4, rfl, fun p hp => ?_⟩
  have key : ∀ ma mb, SendsSame l r (.sync x y) ma mb → (rd1 mb).Eqv (rd1 ma) ∧ (rd2 mb).Eqv (rd2 ma) := by
    intro ma mb hab
    obtain ⟨o, o', ho, ho', hs⟩ := hab
    simp only [Op.out] at ho ho'
    split at ho
    · simp at ho
    split at ho'
    · simp at ho'
    unfold syncOut at ho ho'
    rw [hb1] at ho ho'
    simp only [hb2] at ho ho'
    obtain ⟨d1, g1, ho⟩ := bind_ok (show (southEdgeData (ma x) south >>= _) = Except.ok o from ho)
    obtain ⟨d2, g2, ho⟩ := bind_ok ho
    obtain ⟨d1', g1', ho'⟩ := bind_ok (show (southEdgeData (mb x) south >>= _) = Except.ok o' from ho')
    obtain ⟨d2', g2', ho'⟩ := bind_ok ho'
    have e2 := pure_ok ho
    have e2' := pure_ok ho'
    subst e2 e2'
    rw [hrd1 ma d1 g1, hrd1 mb d1' g1', hrd2 ma d2 g2, hrd2 mb d2' g2']
    cases hs with
    | cons r1 r2 => cases r2 with
      | cons r2 _ => exact ⟨r1.2.2, r2.2.2⟩
  rcases List.mem_cons.1 hp with rfl | hp
  · exact Or.inr ⟨fun ma mb hab => (key ma mb hab).2, NDArray.Eqv.refl _, ⟨west.toRank, tag, j⟩, by simp, rfl, rfl, rfl⟩
  · rcases List.mem_cons.1 hp with rfl | hp
    · exact Or.inr ⟨fun ma mb hab => (key ma mb hab).1, NDArray.Eqv.refl _, ⟨south.toRank, tag, i⟩, by simp, rfl, rfl, rfl⟩
    · exact Or.inl hp

omit [Neg α] in
theorem safe_irecvHalos {l : Layout} {r : Int} {q : Nat} {n : Int} {tag off : Nat} {own : Own} :
    SafeM (irecvHalos l r q n tag) own m P fun rqs own' m' P' => (own' = own ∧ m' = m ∧ P' = P) ∧
      ∀ rq ∈ rqs, ∀ i, haloIn l q n off r m = .ok i → ∃ z ∈ i, z.q = rq.q ∧ z.ix = rq.ix := by
  unfold irecvHalos
  refine SafeM.bind (SafeM.lift (Q := fun bs own' m' P' => Cube.boundaries l r = .ok bs ∧ own' = own ∧ m' = m ∧ P' = P)
    fun bs hb => ⟨hb, rfl, rfl, rfl⟩) ?_
  rintro bs own' m' P' ⟨hb, rfl, rfl, rfl⟩
  refine SafeM.forEach (bs := []) (fun (rqs : List RecvReq) own m2 P2 => (own = own' ∧ m2 = m' ∧ P2 = P') ∧
      ∀ rq ∈ rqs, ∀ i, haloIn l q n off r m' = .ok i → ∃ z ∈ i, z.q = rq.q ∧ z.ix = rq.ix) ?_
    ⟨⟨rfl, rfl, rfl⟩, fun _ h => by simp at h⟩
  rintro b hbm rqs own2 m2 P2 ⟨⟨rfl, rfl, rfl⟩, h3⟩
  refine SafeM.bind (SafeM.quantity (Q := fun qq own' m' P' => qq = m2 q ∧ own' = own2 ∧ m' = m2 ∧ P' = P2)
    ⟨rfl, rfl, rfl, rfl⟩) ?_
  rintro qq own' m' P' ⟨rfl, rfl, rfl, rfl⟩
  refine SafeM.bind (SafeM.lift (Q := fun ix own'' m'' P'' => recvIndex (m' q) b.boundaryType n = .ok ix ∧ own'' = own' ∧
    m'' = m' ∧ P'' = P') fun ix h => ⟨h, rfl, rfl, rfl⟩) ?_
  rintro ix own' m' P' ⟨hix, rfl, rfl, rfl⟩
  refine SafeM.pure ⟨⟨rfl, rfl, rfl⟩, fun rq hrq i hi => ?_⟩
  rcases List.mem_append.1 hrq with h | h
  · exact h3 rq h i hi
  · simp only [List.mem_cons, List.not_mem_nil, or_false] at h
    subst h
    unfold haloIn at hi
    rw [hb] at hi
    refine ⟨⟨b.toRank, off, q, ix⟩, (pyMap_mem (show pyMap _ bs = .ok i from hi)).2 ⟨b, hbm, ?_⟩, rfl, rfl⟩
    rw [hix]; rfl

omit [Neg α] in
theorem safe_irecvSharedBoundary {l : Layout} {r : Int} {x y : Nat} {tag : Nat} {own : Own} :
    SafeM (irecvSharedBoundary l r x y tag) own m P fun rqs own' m' P' => (own' = own ∧ m' = m ∧ P' = P) ∧
      ∀ rq ∈ rqs, ∀ i, syncIn l x y r m = .ok i → ∃ z ∈ i, z.q = rq.q ∧ z.ix = rq.ix := by
  unfold irecvSharedBoundary
  refine SafeM.bind (SafeM.lift (Q := fun b own' m' P' => Cube.boundaryAt l r .north = .ok b ∧ own' = own ∧ m' = m ∧ P' = P)
    fun bs hb => ⟨hb, rfl, rfl, rfl⟩) ?_
  rintro north own' m' P' ⟨hb1, rfl, rfl, rfl⟩
  refine SafeM.bind (SafeM.lift (Q := fun b own'' m'' P'' => Cube.boundaryAt l r .east = .ok b ∧ own'' = own' ∧ m'' = m' ∧ P'' = P')
    fun bs hb => ⟨hb, rfl, rfl, rfl⟩) ?_
  rintro east own' m' P' ⟨hb2, rfl, rfl, rfl⟩
  refine SafeM.bind (SafeM.quantity (Q := fun qq own'' m'' P'' => qq = m' x ∧ own'' = own' ∧ m'' = m' ∧ P'' = P')
    ⟨rfl, rfl, rfl, rfl⟩) ?_
  rintro xq own' m' P' ⟨rfl, rfl, rfl, rfl⟩
  refine SafeM.bind (SafeM.quantity (Q := fun qq own'' m'' P'' => qq = m' y ∧ own'' = own' ∧ m'' = m' ∧ P'' = P')
    ⟨rfl, rfl, rfl, rfl⟩) ?_
  rintro yq own' m' P' ⟨rfl, rfl, rfl, rfl⟩
  refine SafeM.bind (SafeM.lift (Q := fun ix own'' m'' P'' => edgeIndex (m' x) .nw .yI (-1) .x = .ok ix ∧ own'' = own' ∧
    m'' = m' ∧ P'' = P') fun ix h => ⟨h, rfl, rfl, rfl⟩) ?_
  rintro ixN own' m' P' ⟨hN, rfl, rfl, rfl⟩
  refine SafeM.bind (SafeM.lift (Q := fun ix own'' m'' P'' => edgeIndex (m' y) .se .xI (-1) .y = .ok ix ∧ own'' = own' ∧
    m'' = m' ∧ P'' = P') fun ix h => ⟨h, rfl, rfl, rfl⟩) ?_
  rintro ixE own' m' P' ⟨hE, rfl, rfl, rfl⟩
  refine SafeM.pure ⟨⟨rfl, rfl, rfl⟩, fun rq hrq i hi => ?_⟩
  unfold syncIn at hi
  rw [hb1] at hi
  simp only [hb2, hN, hE, Bind.bind, Except.bind, Pure.pure, Except.pure, Except.ok.injEq] at hi
  subst hi
  simp only [List.mem_cons, List.not_mem_nil, or_false] at hrq
  rcases hrq with rfl | rfl
  · exact ⟨_, List.mem_cons_self, rfl, rfl⟩
  · exact ⟨_, List.mem_cons_of_mem _ List.mem_cons_self, rfl, rfl⟩

/-- Starting an update. -/
def begin (l : Layout) (r : Int) : Op α → LM (Mem α) α Request
  | .halo q n => startHaloUpdate l r q n
  | .vector x y n => startVectorHaloUpdate l r x y n
  | .sync x y => startSynchronize l r x y
  | .wait _ => LM.raise .valueError
  | .compute _ => LM.raise .valueError

/-- What is known of a request: the sends and receives of the update. -/
def Begun (l : Layout) (r : Int) (op : Op α) (reqs0 : List Request) (m0 : Mem α) (P0 : List (Pend (Mem α) α))
    (req : Request) (own : Own) (m : Mem α) (P : List (Pend (Mem α) α)) : Prop :=
  Sent l r op reqs0 m0 P0 req.sends own m P ∧
    ∀ rq ∈ req.recvs, ∀ i, op.inn l r m0 = .ok i → ∃ z ∈ i, z.q = rq.q ∧ z.ix = rq.ix

theorem safe_begin {l : Layout} {r : Int} {op : Op α} {own : Own} :
    SafeM (begin l r op) own m P fun req own' m' P' => Begun l r op own.reqs m P req own' m' P' := by
  cases op with
  | wait i => exact SafeM.raise
  | compute f => exact SafeM.raise
  | halo q n =>
    unfold begin startHaloUpdate
    by_cases hn : n = 0
    · simp only [if_pos hn]; exact SafeM.raise
    · simp only [if_neg hn]
      refine SafeM.bind (SafeM.getHaloTag (Q := fun t own' m' P' => own'.reqs = own.reqs ∧ m' = m ∧ P' = P)
        fun t own' h => ⟨h, rfl, rfl⟩) ?_
      rintro tag own1 m1 P1 ⟨e1, rfl, rfl⟩
      refine SafeM.bind (safe_isendHalos hn) ?_
      rintro srs own2 m2 P2 ⟨e2, rfl, h2⟩
      refine SafeM.bind (safe_irecvHalos (off := 0)) ?_
      rintro rqs own3 m3 P3 ⟨⟨rfl, rfl, rfl⟩, h3⟩
      exact SafeM.pure ⟨⟨e2.trans e1, rfl, h2⟩, fun rq hrq i hi => h3 rq hrq i hi⟩
  | vector x y n =>
    unfold begin startVectorHaloUpdate
    by_cases hn : n = 0
    · simp only [if_pos hn]; exact SafeM.raise
    · simp only [if_neg hn]
      refine SafeM.bind (SafeM.getHaloTag (Q := fun t own' m' P' => own'.reqs = own.reqs ∧ m' = m ∧ P' = P)
        fun t own' h => ⟨h, rfl, rfl⟩) ?_
      rintro tag own1 m1 P1 ⟨e1, rfl, rfl⟩
      refine SafeM.bind (SafeM.getHaloTag (Q := fun t own' m' P' => own'.reqs = own1.reqs ∧ m' = m1 ∧ P' = P1)
        fun t own' h => ⟨h, rfl, rfl⟩) ?_
      rintro tag own1' m1 P1 ⟨e1', rfl, rfl⟩
      refine SafeM.bind (safe_isendVectorHalos hn) ?_
      rintro srs own2 m2 P2 ⟨e2, rfl, h2⟩
      refine SafeM.bind (safe_irecvHalos (off := 0)) ?_
      rintro rqs own3 m3 P3 ⟨⟨rfl, rfl, rfl⟩, h3⟩
      refine SafeM.bind (safe_irecvHalos (off := 1)) ?_
      rintro rqs' own3 m3 P3 ⟨⟨rfl, rfl, rfl⟩, h4⟩
      refine SafeM.pure ⟨⟨e2.trans (e1'.trans e1), rfl, h2⟩, fun rq hrq i hi => ?_⟩
      simp only [Op.inn, vectorIn] at hi
      obtain ⟨i1, g1, hi⟩ := bind_ok hi
      obtain ⟨i2, g2, hi⟩ := bind_ok hi
      have := pure_ok hi
      subst this
      rcases List.mem_append.1 hrq with h | h
      · obtain ⟨z, hz, h⟩ := h3 rq h i1 g1
        exact ⟨z, List.mem_append_left _ hz, h⟩
      · obtain ⟨z, hz, h⟩ := h4 rq h i2 g2
        exact ⟨z, List.mem_append_right _ hz, h⟩
  | sync x y =>
    unfold begin startSynchronize
    refine SafeM.bind (SafeM.quantity (Q := fun qq own'' m'' P'' => own'' = own ∧ m'' = m ∧ P'' = P)
      ⟨rfl, rfl, rfl⟩) ?_
    rintro xq own' m' P' ⟨rfl, rfl, rfl⟩
    refine SafeM.bind (SafeM.quantity (Q := fun qq own'' m'' P'' => own'' = own' ∧ m'' = m' ∧ P'' = P')
      ⟨rfl, rfl, rfl⟩) ?_
    rintro yq own' m' P' ⟨rfl, rfl, rfl⟩
    split
    · exact SafeM.raise
    · refine SafeM.bind (SafeM.getHaloTag (Q := fun t own'' m'' P'' => own''.reqs = own'.reqs ∧ m'' = m' ∧ P'' = P')
        fun t own' h => ⟨h, rfl, rfl⟩) ?_
      rintro tag own1 m1 P1 ⟨e1, rfl, rfl⟩
      refine SafeM.bind safe_isendSharedBoundary ?_
      rintro srs own2 m2 P2 ⟨e2, rfl, h2⟩
      refine SafeM.bind safe_irecvSharedBoundary ?_
      rintro rqs own3 m3 P3 ⟨⟨rfl, rfl, rfl⟩, h3⟩
      exact SafeM.pure ⟨⟨e2.trans e1, rfl, h2⟩, fun rq hrq i hi => h3 rq hrq i hi⟩

/-! ### The metadata decide where arrays are stored -/

omit [Neg α] in
theorem recvIndex_meta {q q' : Quantity α} (g : SameMeta q q') (b : BType) (n : Int) :
    recvIndex q' b n = recvIndex q b n := by
  unfold recvIndex boundaryViewIndex
  rw [g.dims, g.origin, g.extent, g.shape]

omit [Neg α] in
theorem edgeIndex_meta {q q' : Quantity α} (g : SameMeta q q') {c : Corner} {d : Dim} {i : Int} {s : Dim}
    {ix ix' : List Ix} (h : edgeIndex q c d i s = .ok ix) (h' : edgeIndex q' c d i s = .ok ix') : ix' = ix := by
  unfold edgeIndex at h h'
  obtain ⟨e, h1, h⟩ := bind_ok h
  obtain ⟨_, -, h⟩ := bind_ok h
  obtain ⟨e', h1', h'⟩ := bind_ok h'
  obtain ⟨_, -, h'⟩ := bind_ok h'
  unfold Quantity.extentOf at h1 h1'
  rw [g.dims, g.extent, h1] at h1'
  simp only [Except.ok.injEq] at h1'
  subst h1'
  unfold Quantity.cornerIndex at h h'
  rw [g.dims, g.origin, g.extent] at h'
  rw [h] at h'
  simpa using h'.symm

omit [Neg α] in
theorem haloIn_meta {l : Layout} {r : Int} {q : Nat} {n : Int} {off : Nat} {mem mem' : Mem α}
    (g : SameMeta (mem q) (mem' q)) : haloIn l q n off r mem' = haloIn l q n off r mem := by
  unfold haloIn
  simp only [recvIndex_meta g]

omit [Neg α] in
theorem inn_meta {l : Layout} {r : Int} {op : Op α} {mem mem' : Mem α} (g : ∀ q ∈ op.qs, SameMeta (mem q) (mem' q))
    {i i' : List Incoming} (h : op.inn l r mem = .ok i) (h' : op.inn l r mem' = .ok i') : i' = i := by
  cases op with
  | halo q n =>
    simp only [Op.inn] at h h'
    rw [haloIn_meta (g q (by simp [Op.qs])), h] at h'
    simpa using h'.symm
  | vector x y n =>
    simp only [Op.inn, vectorIn] at h h'
    rw [haloIn_meta (g x (by simp [Op.qs])), haloIn_meta (g y (by simp [Op.qs])), h] at h'
    simpa using h'.symm
  | sync x y =>
    simp only [Op.inn, syncIn] at h h'
    obtain ⟨b1, e1, h⟩ := bind_ok h
    obtain ⟨b2, e2, h⟩ := bind_ok h
    obtain ⟨i1, e3, h⟩ := bind_ok h
    obtain ⟨i2, e4, h⟩ := bind_ok h
    obtain ⟨b1', e1', h'⟩ := bind_ok h'
    obtain ⟨b2', e2', h'⟩ := bind_ok h'
    obtain ⟨i1', e3', h'⟩ := bind_ok h'
    obtain ⟨i2', e4', h'⟩ := bind_ok h'
    rw [e1] at e1'
    rw [e2] at e2'
    simp only [Except.ok.injEq] at e1' e2'
    rw [← pure_ok h, ← pure_ok h', edgeIndex_meta (g x (by simp [Op.qs])) e3 e3', edgeIndex_meta (g y (by simp [Op.qs])) e4 e4', e1', e2']
  | wait j =>
    simp only [Op.inn] at h h'
    rw [h] at h'
    simpa using h'.symm
  | compute f =>
    simp only [Op.inn] at h h'
    rw [h] at h'
    simpa using h'.symm

/-! ### Waiting -/

/-- The receive is one of those of the update. -/
def RecvOf (l : Layout) (m : Int → Mem α) (r : Int) (op : Op α) (rq : RecvReq) : Prop :=
  ∀ mem, MetaIs m r mem → ∀ i, op.inn l r mem = .ok i → ∃ z ∈ i, z.q = rq.q ∧ z.ix = rq.ix

theorem store_sends {l : Layout} {m : Int → Mem α} {op op' : Op α} (hx : 0 < l.x) (hsq : l.y = l.x)
    (hst : op.isStart = true) (hst' : op'.isStart = true) (hready : UpdateReady l m op)
    (hready' : UpdateReady l m op') (hcomp : op' = op ∨ Compatible op' op) {r : Int} (hr : r ∈ allRanks l)
    {rq : RecvReq} (hrq : RecvOf l m r op rq) {mem mem' : Mem α} (hmeta : MetaIs m r mem) {a : NDArray α}
    (h : storeInto mem rq.q rq.ix a = .ok mem') : SendsSame l r op' mem mem' := by
  obtain ⟨o, i, ho, hi⟩ := (ready_sound hx hsq hst hready).start r hr mem hmeta
  obtain ⟨z, hz, e1, e2⟩ := hrq mem hmeta i hi
  have hd : deliver (fun _ _ => some a) [z] mem = .ok mem' := by
    simp only [deliver, e1, e2, h, Bind.bind, Except.bind]
  have hzs : ∀ x ∈ [z], x ∈ i := by simpa using hz
  rcases hcomp with rfl | hd' | ⟨h1, h2⟩
  · exact C24_sends_unchanged hx hsq hst hready hr hmeta hi _ [z] hzs hd
  · obtain ⟨o', i', ho', -⟩ := (ready_sound hx hsq hst' hready').start r hr mem hmeta
    refine ⟨o', o', ho', ?_, ?_⟩
    · rw [out_congr (mem := mem) fun q hq => ?_]
      · exact ho'
      · refine ((deliver_local (Q := op.qs) (fun x hx => inn_qs hi x (hzs x hx)) hd (mem2 := mem)
          fun _ _ => rfl).choose_spec.2.2 q ?_).2
        exact fun h => hd' q hq h
    · exact List.forall₂_same.2 fun x _ => ⟨rfl, rfl, NDArray.Eqv.refl _⟩
  · exact C24_across_updates hx hsq h1 h2 hready' hready hr hmeta hi _ [z] hzs hd

omit [Neg α] in
theorem safe_awaits {σ : Type} [Memory σ α] {m : σ} {P : List (Pend σ α)} {srs : List SendReq} {own : Own} :
    SafeM (LM.forEach awaitSend srs) own m P fun _ own' m' P' => own' = own ∧ m' = m ∧
      ∀ p ∈ P', p ∈ P ∧ ∀ sr ∈ srs, ¬ IsReq sr p := by
  induction srs generalizing P with
  | nil => exact SafeM.pure ⟨rfl, rfl, fun p hp => ⟨hp, fun _ h => by simp at h⟩⟩
  | cons sr srs ih =>
    unfold LM.forEach
    refine SafeM.bind (SafeM.awaitSend (Q := fun _ own' m' P' => own' = own ∧ m' = m ∧
      P' = dropPend P sr.dst (.halo sr.tag) sr.idx) ⟨rfl, rfl, rfl⟩) ?_
    rintro _ own' m' P' ⟨rfl, rfl, rfl⟩
    refine SafeM.bind ih ?_
    rintro _ own' m' P' ⟨rfl, rfl, h⟩
    refine SafeM.pure ⟨rfl, rfl, fun p hp => ?_⟩
    obtain ⟨h1, h2⟩ := h p hp
    unfold dropPend at h1
    obtain ⟨h3, h4⟩ := List.mem_filter.1 h1
    refine ⟨h3, fun s hs => ?_⟩
    rcases List.mem_cons.1 hs with rfl | hs
    · rintro ⟨c1, c2, c3⟩
      simp [c1, c2, c3] at h4
    · exact h2 s hs

omit [Neg α] in
theorem safe_waitRequest {σ : Type} [Memory σ α] {m : σ} {P : List (Pend σ α)} {req : Request} {own : Own} {G : σ → Prop} (hG : G m)
    (hs : ∀ rq ∈ req.recvs, ∀ mem (a : NDArray α) mem', G mem → Memory.store mem rq.q rq.ix a = .ok mem' → G mem' ∧ Kept P mem') :
    SafeM (waitRequest req) own m P fun _ own' m' P' => own' = own ∧ G m' ∧
      ∀ p ∈ P', p ∈ P ∧ ∀ sr ∈ req.sends, ¬ IsReq sr p := by
  unfold waitRequest
  refine SafeM.bind (SafeM.forEach (bs := []) (fun _ own' m' P' => own' = own ∧ P' = P ∧ G m') ?_ ⟨rfl, rfl, hG⟩) ?_
  · rintro rq hrq bs own' m' P' ⟨rfl, rfl, hg⟩
    exact SafeM.recvInto fun a mem' h => ⟨(hs rq hrq m' a mem' hg h).2, rfl, rfl, (hs rq hrq m' a mem' hg h).1⟩
  · rintro _ own' m' P' ⟨rfl, rfl, hg⟩
    refine SafeM.bind safe_awaits ?_
    rintro _ own' m2 P2 ⟨rfl, rfl, h⟩
    exact SafeM.pure ⟨rfl, hg, h⟩

/-- What is known of the receives of a request. -/
theorem Begun.recvOf {l : Layout} {m : Int → Mem α} {r : Int} {op : Op α} (hx : 0 < l.x) (hsq : l.y = l.x)
    (hst : op.isStart = true) (hready : UpdateReady l m op) (hr : r ∈ allRanks l) {reqs0 : List Request}
    {m0 m1 : Mem α} {P0 P1 : List (Pend (Mem α) α)} {req : Request} {own : Own} (hm : MetaIs m r m0)
    (h : Begun l r op reqs0 m0 P0 req own m1 P1) : ∀ rq ∈ req.recvs, RecvOf l m r op rq := by
  intro rq hrq mem hmem i hi
  obtain ⟨o0, i0, -, h0⟩ := (ready_sound hx hsq hst hready).start r hr m0 hm
  have : i = i0 := inn_meta (fun q _ => (hm q).symm.trans (hmem q)) h0 hi
  subst this
  exact h.2 rq hrq i h0

/-! ### Blocking calls -/

theorem execCall_eq {l : Layout} {r : Int} {c : Call α} {op : Op α} (h : c.start = some op) :
    execCall l r c = (begin l r op >>= waitRequest) := by
  cases c <;> simp only [Call.start, Option.some.injEq, reduceCtorEq] at h <;> subst h <;> rfl

/-- One call. -/
theorem safe_call {l : Layout} {m : Int → Mem α} (hx : 0 < l.x) (hsq : l.y = l.x) {r : Int} (hr : r ∈ allRanks l) {c : Call α}
    {op : Op α} (ho : c.start = some op) (hrd : UpdateReady l m op) {own : Own} {mem : Mem α} (hmem : MetaIs m r mem) :
    SafeM (execCall l r c) own mem [] fun _ _ m' P' => MetaIs m r m' ∧ P' = [] := by
  have hst : op.isStart = true := by
    cases c <;> simp [Call.start] at ho <;> subst ho <;> rfl
  rw [execCall_eq ho]
  refine SafeM.bind safe_begin ?_
  intro req own' m' P' hb
  have hrecv := hb.recvOf hx hsq hst hrd hr hmem
  obtain ⟨⟨-, rfl, hP⟩, -⟩ := hb
  refine SafeM.mono (safe_waitRequest (G := fun mem => MetaIs m r mem ∧ Kept P' mem) ?_ ?_) ?_
  · refine ⟨hmem, fun p hp => ?_⟩
    rcases hP p hp with h | h
    · simp at h
    · exact h.2.1
  · rintro rq hrq mem a mem' ⟨hm, hk⟩ hsto
    have hk' : Kept P' mem' := by
      intro p hp
      rcases hP p hp with h | h
      · simp at h
      · exact (h.1 mem mem' (store_sends hx hsq hst hst hrd hrd (Or.inl rfl) hr (hrecv rq hrq) hm hsto)).trans (hk p hp)
    exact ⟨⟨hm.store hsto, hk'⟩, hk'⟩
  · rintro _ own2 m2 P2 ⟨-, ⟨hm, -⟩, hP2⟩
    refine ⟨hm, ?_⟩
    cases P2 with
    | nil => rfl
    | cons p P2 =>
      exfalso
      obtain ⟨h1, h2⟩ := hP2 p List.mem_cons_self
      rcases hP p h1 with h | ⟨-, -, sr, hsr, h⟩
      · simp at h
      · exact h2 sr hsr h

theorem safe_calls {l : Layout} {m : Int → Mem α} (hx : 0 < l.x) (hsq : l.y = l.x) {r : Int} (hr : r ∈ allRanks l) :
    ∀ (calls : List (Call α)) (_ : ∀ c ∈ calls, ∀ op, c.start = some op → UpdateReady l m op)
      (_ : ∀ f, Call.compute f ∈ calls → ∀ mem, MetaIs m r mem → MetaIs m r (f r mem)) (own : Own) (mem : Mem α)
      (_ : MetaIs m r mem), SafeM (execCalls l r calls) own mem [] fun _ _ _ _ => True := by
  intro calls
  induction calls with
  | nil => intro _ _ own mem _; exact SafeM.pure trivial
  | cons c calls ih =>
    intro hready hcomp own mem hmem
    unfold execCalls
    refine SafeM.bind (Q := fun _ _ m' P' => MetaIs m r m' ∧ P' = []) ?_ ?_
    · by_cases hc : ∃ f, c = .compute f
      · obtain ⟨f, rfl⟩ := hc
        refine ⟨fun p hp => by simp at hp, fun _ _ => ⟨hcomp f List.mem_cons_self mem hmem, rfl⟩⟩
      · obtain ⟨op, ho⟩ : ∃ op, c.start = some op := by
          cases c with
          | compute f => exact absurd ⟨f, rfl⟩ hc
          | _ => exact ⟨_, rfl⟩
        exact safe_call hx hsq hr ho (hready c List.mem_cons_self op ho) hmem
    · rintro _ own' m' P' ⟨hm, rfl⟩
      exact ih (fun c hc => hready c (List.mem_cons_of_mem _ hc)) (fun f hf => hcomp f (List.mem_cons_of_mem _ hf)) own' m' hm

/-! ### Several outstanding updates -/

/-- What is known after the operations `pre` of the program `all`. -/
structure Fine (l : Layout) (m : Int → Mem α) (r : Int) (all pre : List (Op α)) (own : Own) (mem : Mem α)
    (P : List (Pend (Mem α) α)) : Prop where
  metas : MetaIs m r mem
  kept : Kept P mem
  count : own.reqs.length = pre.countP Op.isStart
  recvs : ∀ (k : Nat) req, own.reqs[k]? = some req → ∃ op, (startsOf all)[k]? = some op ∧
    ∀ rq ∈ req.recvs, RecvOf l m r op rq
  pends : ∀ p ∈ P, ∃ (k : Nat) (req : Request) (op : Op α), own.reqs[k]? = some req ∧ (startsOf all)[k]? = some op ∧
    Op.wait k ∉ pre ∧ PendOf l r op p ∧ ∃ sr ∈ req.sends, IsReq sr p

theorem execOp_eq {l : Layout} {r : Int} {op : Op α} (h : op.isStart = true) :
    execOp l r op = (begin l r op >>= pushReq) := by
  cases op <;> simp [Op.isStart] at h <;> rfl

omit [Neg α] in
theorem startsOf_at {pre rest : List (Op α)} {op : Op α} (h : op.isStart = true) :
    (startsOf (pre ++ op :: rest))[pre.countP Op.isStart]? = some op := by
  unfold startsOf
  rw [List.filter_append, List.filter_cons_of_pos h, List.countP_eq_length_filter]
  simp

theorem safe_ops {l : Layout} {m : Int → Mem α} (hx : 0 < l.x) (hsq : l.y = l.x) {r : Int} (hr : r ∈ allRanks l)
    {all : List (Op α)} (hready : ∀ op ∈ startsOf all, UpdateReady l m op)
    (hcomp : ∀ f, Op.compute f ∈ all → ∀ mem, MetaIs m r mem → MetaIs m r (f r mem)) (hws : WaitsStarted all)
    (hl : LeavesSends l m r all) :
    ∀ (rest pre : List (Op α)) (_ : all = pre ++ rest) (own : Own) (mem : Mem α) (P : List (Pend (Mem α) α))
      (_ : Fine l m r all pre own mem P), SafeM (execOps l r rest) own mem P fun _ _ _ _ => True := by
  have hstart : ∀ op ∈ startsOf all, op.isStart = true := fun op h => (List.mem_filter.1 h).2
  intro rest
  induction rest with
  | nil => intro pre _ own mem P _; exact SafeM.pure trivial
  | cons op rest ih =>
    intro pre hall own mem P F
    have hall' : all = (pre ++ [op]) ++ rest := by rw [hall]; simp
    have hopm : op ∈ all := by rw [hall]; simp
    have htake : all.take pre.length = pre := by rw [hall]; simp
    have hat : all[pre.length]? = some op := by rw [hall]; simp
    have hout : ∀ k, k < own.reqs.length → Op.wait k ∉ pre → OutstandingAt all pre.length k := by
      intro k h1 h2
      unfold OutstandingAt
      rw [htake, ← F.count]
      exact ⟨h1, h2⟩
    have hlt : ∀ {k : Nat} {req : Request}, own.reqs[k]? = some req → k < own.reqs.length := fun h =>
      (List.getElem?_eq_some_iff.1 h).1
    unfold execOps
    refine SafeM.bind (Q := fun _ own' m' P' => Fine l m r all (pre ++ [op]) own' m' P') ?_
      fun _ own' m' P' F' => ih (pre ++ [op]) hall' own' m' P' F'
    by_cases hst : op.isStart = true
    · have hk : (startsOf all)[own.reqs.length]? = some op := by
        rw [F.count, hall]; exact startsOf_at hst
      have hrd := hready op (List.mem_filter.2 ⟨hopm, hst⟩)
      have hnw : ∀ k, Op.wait k ≠ op := by rintro k rfl; simp [Op.isStart] at hst
      rw [execOp_eq hst]
      refine SafeM.bind safe_begin ?_
      intro req own' m' P' hb
      have hrecv := hb.recvOf hx hsq hst hrd hr F.metas
      obtain ⟨⟨hreq, rfl, hP⟩, -⟩ := hb
      intro _ _
      refine ⟨F.metas, ?_, ?_, ?_, ?_⟩
      · intro p hp
        rcases hP p hp with h | h
        · exact F.kept p h
        · exact h.2.1
      · simp [hreq, F.count, hst]
      · intro k req' hk'
        simp only [hreq] at hk'
        rcases Nat.lt_or_ge k own.reqs.length with hlt | hge
        · rw [List.getElem?_append_left hlt] at hk'
          exact F.recvs k req' hk'
        · rw [List.getElem?_append_right hge] at hk'
          have : k = own.reqs.length := by
            have := (List.getElem?_eq_some_iff.1 hk').1
            simp at this
            omega
          subst this
          simp at hk'
          subst hk'
          exact ⟨op, hk, hrecv⟩
      · intro p hp
        simp only [hreq]
        rcases hP p hp with h | ⟨h1, h2, h3⟩
        · obtain ⟨k, req', op', e1, e2, e3, e4⟩ := F.pends p h
          refine ⟨k, req', op', ?_, e2, ?_, e4⟩
          · rw [List.getElem?_append_left (hlt e1)]; exact e1
          · simp only [List.mem_append, List.mem_singleton, not_or]
            exact ⟨e3, hnw k⟩
        · refine ⟨own.reqs.length, req, op, by simp, hk, ?_, h1, h3⟩
          simp only [List.mem_append, List.mem_singleton, not_or]
          refine ⟨fun hw => ?_, hnw _⟩
          obtain ⟨d, hd⟩ := List.getElem?_of_mem hw
          have hdl := (List.getElem?_eq_some_iff.1 hd).1
          have h4 := hws d _ (by rw [hall, List.getElem?_append_left hdl]; exact hd)
          have h5 : (all.take d).countP Op.isStart ≤ pre.countP Op.isStart := by
            conv_rhs => rw [← htake]
            exact (List.take_sublist_take_left (by omega)).countP_le
          rw [F.count] at h4
          omega
    · cases op with
      | halo q n => simp [Op.isStart] at hst
      | vector x y n => simp [Op.isStart] at hst
      | sync x y => simp [Op.isStart] at hst
      | compute f =>
        have hk : Kept P (f r mem) := by
          intro p hp
          obtain ⟨k, req, op', e1, e2, e3, e4, -⟩ := F.pends p hp
          exact (e4 mem (f r mem) (hl.computes pre.length f hat k (hout k (hlt e1) e3) op' e2 mem F.metas)).trans
            (F.kept p hp)
        refine ⟨hk, fun _ _ => ⟨hcomp f hopm mem F.metas, hk, ?_, F.recvs, ?_⟩⟩
        · simp [F.count, Op.isStart]
        · intro p hp
          obtain ⟨k, req, op', e1, e2, e3, e4⟩ := F.pends p hp
          exact ⟨k, req, op', e1, e2, by simpa using e3, e4⟩
      | wait i =>
        show SafeM (getReq i >>= waitRequest) own mem P _
        refine SafeM.bind (Q := fun req own' m' P' => own.reqs[i]? = some req ∧ own' = own ∧ m' = mem ∧ P' = P) ?_ ?_
        · unfold SafeM getReq
          cases hi : own.reqs[i]? with
          | none => intro a h; simp at h
          | some req =>
            intro a h
            simp only [Except.ok.injEq] at h
            subst h
            exact ⟨rfl, rfl, rfl, rfl⟩
        · rintro req own' m' P' ⟨hi, rfl, rfl, rfl⟩
          obtain ⟨opi, hopi, hrecv⟩ := F.recvs i req hi
          have hmi := List.mem_of_getElem? hopi
          refine SafeM.mono (safe_waitRequest (G := fun mem => MetaIs m r mem ∧ Kept P' mem) ⟨F.metas, F.kept⟩ ?_) ?_
          · rintro rq hrq mem a mem' ⟨hm, hk⟩ hsto
            have hk' : Kept P' mem' := by
              intro p hp
              obtain ⟨k, req', op', e1, e2, e3, e4, -⟩ := F.pends p hp
              have hmk := List.mem_of_getElem? e2
              refine (e4 mem mem' (store_sends hx hsq (hstart _ hmi) (hstart _ hmk) (hready _ hmi) (hready _ hmk) ?_ hr
                (hrecv rq hrq) hm hsto)).trans (hk p hp)
              by_cases hki : k = i
              · subst hki
                rw [hopi] at e2
                exact Or.inl (by simpa using e2.symm)
              · exact Or.inr (hl.waits pre.length i hat k hki (hout k (hlt e1) e3) op' opi e2 hopi)
            exact ⟨⟨hm.store hsto, hk'⟩, hk'⟩
          · rintro _ own2 m2 P2 ⟨rfl, ⟨hm, hk⟩, hP2⟩
            refine ⟨hm, fun p hp => hk p (hP2 p hp).1, ?_, F.recvs, ?_⟩
            · simp [F.count, Op.isStart]
            · intro p hp
              obtain ⟨h1, h2⟩ := hP2 p hp
              obtain ⟨k, req', op', e1, e2, e3, e4, sr, hsr, h⟩ := F.pends p h1
              refine ⟨k, req', op', e1, e2, ?_, e4, sr, hsr, h⟩
              simp only [List.mem_append, List.mem_singleton, not_or, Op.wait.injEq]
              refine ⟨e3, ?_⟩
              rintro rfl
              rw [hi] at e1
              simp only [Option.some.injEq] at e1
              subst e1
              exact h2 sr hsr h

end FV3.Late
