import Verif.Proofs.ByaccMeaningAll
/-
Auxiliary facts: what is read from a text leaves an end of it, and the characters of literals are bytes if the text consists of bytes.
-/
set_option autoImplicit false
namespace Verif.Spec.YText
open Byacc (Assoc)
open Byacc.Rd (Kw)

/-- all are bytes -/
def Bytes (t : List Nat) : Prop := ∀ c ∈ t, c < 256

theorem Bytes.suffix {t u : List Nat} (h : Bytes t) (s : u <:+ t) : Bytes u := fun c hc => h c (s.subset hc)

/-- the characters of a literal are bytes -/
def Sym.Bytes : Sym → Prop
  | .name _ => True
  | .lit s => YText.Bytes s

theorem sfx_append (a u : List Nat) : u <:+ a ++ u := List.suffix_append a u
theorem sfx_cons {u t : List Nat} (c : Nat) (h : u <:+ t) : u <:+ c :: t := h.trans (List.suffix_cons c t)

theorem skips_sfx {t u : List Nat} (h : Skips t u) : u <:+ t := by
  induction h with
  | here => exact List.suffix_refl _
  | blank c t u _ _ ih => exact sfx_cons _ ih
  | block s t u _ _ ih => exact sfx_cons _ (sfx_cons _ ((sfx_cons _ (sfx_cons _ ih)).trans (sfx_append _ _)))
  | line s t u _ _ ih => exact sfx_cons _ (sfx_cons _ ((sfx_cons _ ih).trans (sfx_append _ _)))
  | lineEnd => exact List.nil_suffix

theorem kwAt_sfx {k : Kw} {t u : List Nat} (h : KwAt k t u) : u <:+ t := by
  obtain ⟨p, w, -, rfl, -⟩ := h
  exact sfx_cons _ (sfx_append _ _)

theorem nameAt_sfx {n t u : List Nat} (h : NameAt n t u) : u <:+ t := by rw [h.1]; exact sfx_append _ _

theorem numberAt_sfx {n : Nat} {t u : List Nat} (h : NumberAt n t u) : u <:+ t := by
  obtain ⟨ds, -, -, rfl, -⟩ := h; exact sfx_append _ _

theorem litBody_sfx {q : Nat} {s t u : List Nat} (h : LitBody q s t u) : u <:+ t := by
  induction h with
  | close u => exact List.suffix_cons _ _
  | plain c s t u _ _ _ _ ih => exact sfx_cons _ ih
  | join s t u _ ih => exact sfx_cons _ (sfx_cons _ ih)
  | octal ds n s t u _ _ _ _ _ _ ih => exact sfx_cons _ (ih.trans (sfx_append _ _))
  | hex ds n s t u _ _ _ _ _ ih => exact sfx_cons _ (sfx_cons _ (ih.trans (sfx_append _ _)))
  | letter c n s t u _ _ ih => exact sfx_cons _ (sfx_cons _ ih)
  | other c s t u _ _ _ _ _ ih => exact sfx_cons _ (sfx_cons _ ih)

theorem litBody_bytes {q : Nat} {s t u : List Nat} (h : LitBody q s t u) (hb : Bytes t) : Bytes s := by
  induction h with
  | close u => intro c hc; cases hc
  | plain c s t u _ _ _ _ ih =>
    intro d hd
    rcases List.mem_cons.1 hd with rfl | hd
    · exact hb _ (by simp)
    · exact ih (fun e he => hb e (by simp [he])) d hd
  | join s t u _ ih => exact ih (fun e he => hb e (by simp [he]))
  | octal ds n s t u _ _ _ _ hn _ ih =>
    intro d hd
    rcases List.mem_cons.1 hd with rfl | hd
    · omega
    · exact ih (fun e he => hb e (by simp [he])) d hd
  | hex ds n s t u _ _ _ hn _ ih =>
    intro d hd
    rcases List.mem_cons.1 hd with rfl | hd
    · omega
    · exact ih (fun e he => hb e (by simp [he])) d hd
  | letter c n s t u hm _ ih =>
    intro d hd
    rcases List.mem_cons.1 hd with rfl | hd
    · simp only [escapes, List.mem_cons, Prod.mk.injEq, List.not_mem_nil, or_false] at hm
      omega
    · exact ih (fun e he => hb e (by simp [he])) d hd
  | other c s t u _ _ _ _ _ ih =>
    intro d hd
    rcases List.mem_cons.1 hd with rfl | hd
    · exact hb _ (by simp)
    · exact ih (fun e he => hb e (by simp [he])) d hd

theorem symAt_sfx {x : Sym} {t u : List Nat} (h : SymAt x t u) : u <:+ t := by
  cases x with
  | name n => exact nameAt_sfx h.1
  | lit s => obtain ⟨q, r, -, rfl, h⟩ := h; exact sfx_cons _ (litBody_sfx h)

theorem symAt_bytes {x : Sym} {t u : List Nat} (h : SymAt x t u) (hb : Bytes t) : x.Bytes := by
  cases x with
  | name n => trivial
  | lit s => obtain ⟨q, r, -, rfl, h⟩ := h; exact litBody_bytes h fun c hc => hb c (by simp [hc])

theorem tagAt_sfx {g t u : List Nat} (h : TagAt g t u) : u <:+ t := by
  obtain ⟨t1, t2, t3, rfl, h1, h2, -, h3⟩ := h
  exact sfx_cons _ ((List.suffix_cons _ _).trans ((skips_sfx h3).trans ((nameAt_sfx h2).trans (skips_sfx h1))))

theorem pieceAt_sfx {o t u : List Nat} (h : PieceAt o t u) : u <:+ t := by
  cases h with
  | string q s u => exact sfx_cons _ ((List.suffix_cons _ _).trans (sfx_append _ _))
  | block s u => exact sfx_cons _ (sfx_cons _ ((sfx_cons _ (List.suffix_cons _ _)).trans (sfx_append _ _)))
  | line s s' u => exact sfx_cons _ (sfx_cons _ (sfx_append _ _))
  | char c u => exact List.suffix_cons _ _

theorem textAt_sfx {o t u : List Nat} (h : TextAt o t u) : u <:+ t := by
  induction h with
  | done t u h => obtain ⟨p, -, rfl⟩ := h; exact sfx_cons _ (List.suffix_cons _ _)
  | piece o os t u v _ h _ ih => exact ih.trans (pieceAt_sfx h)

theorem unionAt_sfx {d : Int} {t u : List Nat} (h : UnionAt d t u) : u <:+ t := by
  induction h with
  | last u => exact List.suffix_cons _ _
  | opening d t u _ ih => exact sfx_cons _ ih
  | closing d t u _ _ ih => exact sfx_cons _ ih
  | piece d o t u v _ h _ ih => exact ih.trans (pieceAt_sfx h)

theorem refAt_sfx {b : Bool} {r : RefTo} {t u : List Nat} (h : RefAt b r t u) : u <:+ t := by
  cases h with
  | lhs => exact List.suffix_cons _ _
  | pos n t u h => exact numberAt_sfx h
  | neg n t u h =>
    rcases h with h | ⟨-, rfl, -⟩
    · exact sfx_cons _ (numberAt_sfx h)
    · exact List.suffix_cons _ _
  | name s t u _ e => rw [e]; exact sfx_append _ _

theorem tagRefAt_sfx {r : RefTo} {t u : List Nat} (h : TagRefAt r t u) : u <:+ t := by
  cases h with
  | lhs => exact List.suffix_cons _ _
  | pos n t u h => exact numberAt_sfx h
  | neg n t u h => exact sfx_cons _ (numberAt_sfx h)
  | name s t u e => rw [e]; exact sfx_append _ _

theorem partAt_sfx {p : Part} {t u : List Nat} (h : PartAt p t u) : u <:+ t := by
  cases h with
  | value r t u h => exact sfx_cons _ (refAt_sfx h)
  | tagged tag r t u v h1 h2 => exact sfx_cons _ ((tagRefAt_sfx h2).trans (tagAt_sfx h1))
  | place r t u h => exact sfx_cons _ (refAt_sfx h)
  | ident c s u => exact sfx_cons _ (sfx_append _ _)
  | copied o t u _ _ h => exact pieceAt_sfx h

theorem partsAt_sfx {d : Int} {ps : List Part} {t u : List Nat} (h : PartsAt d ps t u) : u <:+ t := by
  induction h with
  | semicolon => exact List.suffix_cons _ _
  | last => exact List.suffix_cons _ _
  | semi d ps t u _ _ ih => exact sfx_cons _ ih
  | opening d ps t u _ ih => exact sfx_cons _ ih
  | closing d ps t u _ _ ih => exact sfx_cons _ ih
  | part d p ps t u v h _ ih => exact ih.trans (partAt_sfx h)

theorem actionAt_sfx {b : Bool} {ps : List Part} {t u : List Nat} (h : ActionAt b ps t u) : u <:+ t := by
  obtain ⟨t1, h1, h2⟩ := h
  have e : t1 <:+ t := by
    rcases h1 with ⟨rfl, -⟩ | rfl
    · exact List.suffix_refl _
    · exact List.suffix_cons _ _
  refine List.IsSuffix.trans ?_ e
  rcases h2 with ⟨-, sp, r, rfl, -, h⟩ | ⟨-, -, h⟩
  · exact (partsAt_sfx h).trans (sfx_append _ _)
  · exact partsAt_sfx h

theorem itemsAt_bytes {items : List (Sym × Option Nat)} {t u : List Nat} (h : ItemsAt items t u) : u <:+ t ∧ (Bytes t → ∀ y ∈ items, y.1.Bytes) := by
  induction h with
  | nil t u h => exact ⟨skips_sfx h, fun _ y hy => by cases hy⟩
  | sym x xs t u v w z h1 h2 h3 _ _ ih =>
    have a1 := skips_sfx h1
    have a3 := (skips_sfx h3).trans ((symAt_sfx h2).trans a1)
    refine ⟨ih.1.trans a3, fun hb y hy => ?_⟩
    rcases List.mem_cons.1 hy with rfl | hy
    · exact symAt_bytes h2 (hb.suffix a1)
    · exact ih.2 (hb.suffix a3) y hy
  | num x n xs t u v w y z h1 h2 h3 h4 _ _ ih =>
    have a1 := skips_sfx h1
    have a3 := (numberAt_sfx h4).trans ((skips_sfx h3).trans ((symAt_sfx h2).trans a1))
    refine ⟨ih.1.trans a3, fun hb y hy => ?_⟩
    rcases List.mem_cons.1 hy with rfl | hy
    · exact symAt_bytes h2 (hb.suffix a1)
    · exact ih.2 (hb.suffix a3) y hy

theorem namesAt_bytes {items : List Sym} {t u : List Nat} (h : NamesAt items t u) : u <:+ t ∧ (Bytes t → ∀ y ∈ items, y.Bytes) := by
  induction h with
  | nil t u h => exact ⟨skips_sfx h, fun _ y hy => by cases hy⟩
  | cons x xs t u v w z h1 h2 h3 _ _ ih =>
    have a1 := skips_sfx h1
    have a3 := (skips_sfx h3).trans ((symAt_sfx h2).trans a1)
    refine ⟨ih.1.trans a3, fun hb y hy => ?_⟩
    rcases List.mem_cons.1 hy with rfl | hy
    · exact symAt_bytes h2 (hb.suffix a1)
    · exact ih.2 (hb.suffix a3) y hy

theorem taggedAt_sfx {α : Type} {P : α → List Nat → List Nat → Prop} {tag : Option (List Nat)} {x : α} {t u : List Nat} (h : TaggedAt P tag x t u) :
    ∃ v, v <:+ t ∧ P x v u := by
  obtain ⟨t1, h1, -, ⟨-, -, h2⟩ | ⟨g, t2, -, h3, h4⟩⟩ := h
  · exact ⟨t1, skips_sfx h1, h2⟩
  · exact ⟨t2, (tagAt_sfx h3).trans (skips_sfx h1), h4⟩

/-- the literals in a declaration consist of bytes -/
def Decl.Bytes : Decl → Prop
  | .tokens _ _ items => ∀ y ∈ items, y.1.Bytes
  | .types _ xs => ∀ y ∈ xs, y.Bytes
  | _ => True

theorem declAt_bytes {d : Decl} {t u : List Nat} (h : DeclAt d t u) : u <:+ t ∧ (Bytes t → d.Bytes) := by
  cases h with
  | tokens k a tag items t v u h1 _ h2 =>
    obtain ⟨z, h3, h4⟩ := taggedAt_sfx h2
    have h5 := h3.trans (kwAt_sfx h1)
    exact ⟨(itemsAt_bytes h4).1.trans h5, fun hb => (itemsAt_bytes h4).2 (hb.suffix h5)⟩
  | types tag items t v u h1 h2 =>
    obtain ⟨z, h3, h4⟩ := taggedAt_sfx h2
    have h5 := h3.trans (kwAt_sfx h1)
    exact ⟨(namesAt_bytes h4).1.trans h5, fun hb => (namesAt_bytes h4).2 (hb.suffix h5)⟩
  | start name t v w u h1 h2 h3 => exact ⟨(symAt_sfx h3).trans ((skips_sfx h2).trans (kwAt_sfx h1)), fun _ => trivial⟩
  | expect n t v u h1 h2 =>
    obtain ⟨c, sp, r, rfl, -, -, h3, -⟩ := h2
    exact ⟨((numberAt_sfx h3).trans (sfx_cons _ (sfx_append _ _))).trans (kwAt_sfx h1), fun _ => trivial⟩
  | expectRR n t v u h1 h2 =>
    obtain ⟨c, sp, r, rfl, -, -, h3, -⟩ := h2
    exact ⟨((numberAt_sfx h3).trans (sfx_cons _ (sfx_append _ _))).trans (kwAt_sfx h1), fun _ => trivial⟩
  | text o t v w u h1 h2 h3 =>
    have : w <:+ v := by
      rcases h2 with rfl | ⟨rfl, -⟩
      · exact List.suffix_cons _ _
      · exact List.suffix_refl _
    exact ⟨(textAt_sfx h3).trans (this.trans (kwAt_sfx h1)), fun _ => trivial⟩
  | union t v u h1 h2 => exact ⟨(unionAt_sfx h2).trans (kwAt_sfx h1), fun _ => trivial⟩
  | ident t v u h1 h2 =>
    obtain ⟨s, r, h3, -, -, h4⟩ := h2
    have : u <:+ r := by
      rcases h4 with rfl | ⟨rfl, -⟩
      · exact List.suffix_cons _ _
      · exact List.suffix_refl _
    exact ⟨(this.trans (sfx_cons _ (sfx_append _ _))).trans ((skips_sfx h3).trans (kwAt_sfx h1)), fun _ => trivial⟩
  | flag k t u h => exact ⟨kwAt_sfx h, fun _ => trivial⟩

theorem declsAt_bytes {ds : List Decl} {t u : List Nat} (h : DeclsAt ds t u) : u <:+ t ∧ (Bytes t → ∀ d ∈ ds, d.Bytes) := by
  induction h with
  | done t v u h1 h2 => exact ⟨(kwAt_sfx h2).trans (skips_sfx h1), fun _ d hd => by cases hd⟩
  | cons d ds t v w u h1 h2 _ ih =>
    have a1 := skips_sfx h1
    have a2 := (declAt_bytes h2).1.trans a1
    refine ⟨ih.1.trans a2, fun hb e he => ?_⟩
    rcases List.mem_cons.1 he with rfl | he
    · exact (declAt_bytes h2).2 (hb.suffix a1)
    · exact ih.2 (hb.suffix a2) e he

theorem earlyAt_bytes {ds : List Decl} {t u : List Nat} (h : EarlyAt ds t u) : u <:+ t ∧ (Bytes t → ∀ d ∈ ds, d.Bytes) := by
  induction h with
  | done t u h1 => exact ⟨skips_sfx h1, fun _ d hd => by cases hd⟩
  | cons d ds t v w u h1 h2 _ _ ih =>
    have a1 := skips_sfx h1
    have a2 := (declAt_bytes h2).1.trans a1
    refine ⟨ih.1.trans a2, fun hb e he => ?_⟩
    rcases List.mem_cons.1 he with rfl | he
    · exact (declAt_bytes h2).2 (hb.suffix a1)
    · exact ih.2 (hb.suffix a2) e he

/-- the literals in a token of the rules consist of bytes -/
def RTok.Bytes : RTok → Prop
  | .sym x | .lhs x | .prec x => x.Bytes
  | _ => True

theorem rtokAt_bytes {x : RTok} {t u : List Nat} (h : RTokAt x t u) : u <:+ t ∧ (Bytes t → x.Bytes) := by
  cases h with
  | sym x t v w h1 h2 => exact ⟨(skips_sfx h2).trans (symAt_sfx h1), fun hb => symAt_bytes h1 hb⟩
  | lhs x t v u h1 h2 => exact ⟨(List.suffix_cons _ _).trans ((skips_sfx h2).trans (symAt_sfx h1)), fun hb => symAt_bytes h1 hb⟩
  | bar u => exact ⟨List.suffix_cons _ _, fun _ => trivial⟩
  | action b ps t u h => exact ⟨actionAt_sfx h, fun _ => trivial⟩
  | prec x t v w u h1 h2 h3 =>
    have a : v <:+ t := by
      obtain ⟨p, z, -, rfl, h | ⟨s, rfl, -⟩⟩ := h1
      · exact sfx_cons _ (by rw [h]; exact List.suffix_cons _ _)
      · exact sfx_cons _ (sfx_append _ _)
    have a2 := (skips_sfx h2).trans a
    exact ⟨(symAt_sfx h3).trans a2, fun hb => symAt_bytes h3 (hb.suffix a2)⟩

theorem rtokensAt_bytes {xs : List RTok} {t : List Nat} (h : RTokensAt xs t) (hb : Bytes t) : ∀ x ∈ xs, x.Bytes := by
  induction h with
  | done => intro x hx; cases hx
  | cons x xs t u v h1 h2 _ ih =>
    have a1 := hb.suffix (skips_sfx h1)
    intro y hy
    rcases List.mem_cons.1 hy with rfl | hy
    · exact (rtokAt_bytes h2).2 a1
    · exact ih (a1.suffix (rtokAt_bytes h2).1) y hy

theorem fileAt_bytes {F : File} {t : List Nat} (h : FileAt F t) (hb : Bytes t) : (∀ d ∈ F.all, d.Bytes) ∧ ∀ x ∈ F.toks, x.Bytes := by
  obtain ⟨u, v, w, h1, h2, ⟨z, h3, -, h4⟩, h5⟩ := h
  have b1 := hb.suffix (declsAt_bytes h1).1
  have b2 := b1.suffix (earlyAt_bytes h2).1
  have b3 := b2.suffix (((List.suffix_cons _ _).trans (skips_sfx h4)).trans (symAt_sfx h3))
  refine ⟨fun d hd => ?_, rtokensAt_bytes h5 b3⟩
  rcases List.mem_append.1 hd with hd | hd
  · exact (declsAt_bytes h1).2 hb d hd
  · exact (earlyAt_bytes h2).2 b1 d hd

end Verif.Spec.YText
