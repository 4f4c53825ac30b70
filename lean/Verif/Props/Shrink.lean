import Verif.Proof.Shrink
import Verif.Props.Stream
/-!
# C102: whether packets can be made smaller
-/

namespace Packetc.Props
open Ast Check Gen WellFormed Js Module Shrink

variable (rt : Runtime)

/-- C102, full statement: there is no other self-delimiting way to write the packets of a schema in which no packet is longer and
some are shorter. -/
def C102_claim : Prop := ∀ (rt : Runtime) (ast : AST) (e : Artifact), Compiled ast e → Usable e → Delimiting rt →
  ¬ ∃ c, Better rt e c

theorem compiled_kind {ast : AST} {e : Artifact} (hc : Compiled ast e) (k : Kind) : KindOf ast e.name k ↔ kindFs e.fields = k := by
  obtain ⟨env, text, r, hfair, -, hp, -, ht, he⟩ := hc
  have hnb := parsed_noBuiltinDecl hp
  obtain ⟨c, hf, hex, hg, -, -, -⟩ := typeCheck_final hfair.1 hnb ht
  rw [he] at hg
  exact final_kind hf hnb _ _ _ _ (Nat.le_refl _) hg k

theorem better_iff {ast : AST} {e : Artifact} (hc : Compiled ast e) (hu : Usable e) (c : List (PropOf JVal) → List UInt8) :
    Better rt e c ↔ Free (HasFields e.fields) c ∧
      (∀ ps, HasFields e.fields ps → (c ps).length ≤ (encodeFields rt e.fields ps).length) ∧
      ∃ ps, HasFields e.fields ps ∧ (c ps).length < (encodeFields rt e.fields ps).length := by
  have hw : ∀ {ps bytes}, HasFields e.fields ps → Writes rt e ps bytes → bytes = encodeFields rt e.fields ps := fun hps h =>
    writes_unique rt hc hu hps h (C30_write_format rt hc hu.loads hps)
  constructor
  · rintro ⟨h1, h2, ps, bytes, h3, h4, h5⟩
    refine ⟨h1, fun ps hps => h2 ps _ hps (C30_write_format rt hc hu.loads hps), ps, h3, ?_⟩
    rw [← hw h3 h4]
    exact h5
  · rintro ⟨h1, h2, ps, h3, h4⟩
    refine ⟨h1, fun ps bytes hps h => ?_, ps, _, h3, C30_write_format rt hc hu.loads h3, h4⟩
    rw [hw hps h]
    exact h2 ps hps

/-- C102, exactly: packets can be made smaller if and only if the exported type is loose, as computed from the schema: something
in it uses its bytes badly, or a choice is not the only thing that takes space. For libraries with self-delimiting text in which
some byte begins no text (such as UTF-8). -/
theorem C102_exact {ast : AST} {e : Artifact} (hc : Compiled ast e) (hu : Usable e) (hd : Delimiting rt) (hg : TextGap rt) :
    (∃ c, Better rt e c) ↔ KindOf ast e.name .loose := by
  have h := kind_fields hd hg e.fields (soundFs_enums _ (compiled_sound hc))
  rw [compiled_kind hc]
  constructor
  · rintro ⟨c, hb⟩
    by_contra hk
    exact tight h hk ⟨c, (better_iff rt hc hu c).1 hb⟩
  · intro hk
    rw [hk] at h
    obtain ⟨c, hb⟩ := h
    exact ⟨c, (better_iff rt hc hu c).2 hb⟩

/-- Only integers, structs, and arrays of such. -/
inductive Integers (ast : AST) : Str → Prop
  | builtin {n} : n ∈ builtinNames → n ≠ "float".toList → n ≠ "string".toList → Integers ast n
  | struct {n fs} : .decl n (.struct fs) ∈ ast → (∀ f ∈ fs, f.2.optional = false) → (∀ f ∈ fs, Integers ast f.2.name) → Integers ast n

theorem integers_kind {ast : AST} {n : Str} (h : Integers ast n) : KindOf ast n .dense ∨ KindOf ast n .none := by
  induction h with
  | @builtin n h1 h2 h3 =>
    refine .inl (.builtin ?_)
    have : ∀ n ∈ builtinNames, n ≠ "float".toList → n ≠ "string".toList → (n, Kind.dense) ∈ builtinKinds := by decide
    exact this n h1 h2 h3
  | @struct n fs hd hfs _ ih =>
    have key : ∀ gs : List (Str × Unresolved), (∀ f ∈ gs, f ∈ fs) → KindFields ast gs .dense ∨ KindFields ast gs .none := by
      intro gs hgs
      induction gs with
      | nil => exact .inr .nil
      | cons f gs ihg =>
        have hf := hgs f List.mem_cons_self
        have ho := hfs f hf
        have hone : ∀ {k l}, KindOf ast f.2.name k → KindFields ast gs l → KindFields ast (f :: gs) ((k.field f.2.array false).and l) :=
          fun h1 h2 => ho ▸ .cons h1 h2
        rcases ih f hf with h1 | h1 <;> rcases ihg (fun g hg => hgs g (List.mem_cons_of_mem _ hg)) with h2 | h2 <;>
          have h := hone h1 h2 <;> cases ha : f.2.array <;> rw [ha] at h <;> first | exact .inl h | exact .inr h
    rcases key fs fun f hf => hf with h | h
    · exact .inl (.struct hd h)
    · exact .inr (.struct hd h)

theorem kind_unique {ast : AST} {e : Artifact} (hc : Compiled ast e) {k l : Kind} (h1 : KindOf ast e.name k) (h2 : KindOf ast e.name l) :
    k = l := ((compiled_kind hc k).1 h1).symm.trans ((compiled_kind hc l).1 h2)

/-- C102, what holds: packets made of integers, structs, and arrays of these are as small as possible, for every library with
self-delimiting text. What is missing: floats, strings, enums and optional fields; with these it holds for packets of one byte only
(see `C102_exact`). -/
theorem C102_integers_partial {ast : AST} {e : Artifact} (hc : Compiled ast e) (hu : Usable e) (hd : Delimiting rt) (hg : TextGap rt)
    (h : Integers ast e.name) : ¬ ∃ c, Better rt e c := by
  rw [C102_exact rt hc hu hd hg]
  intro hl
  rcases integers_kind h with h | h
  · exact absurd (kind_unique hc h hl) (by decide)
  · exact absurd (kind_unique hc h hl) (by decide)

/-! ### with UTF-8 -/

theorem leUtf8_textGap : TextGap leUtf8 where
  gap := by
    refine ⟨255, fun s h => ?_⟩
    have h : [255] <+: utf8Enc s := h
    cases s with
    | nil => exact absurd h (by decide)
    | cons c s =>
      have h : [255] <+: String.utf8EncodeChar c ++ utf8Enc s := h
      have ht : ∀ k, k < 255 → (255 : UInt8) ≠ UInt8.ofNat k := by
        intro k hk h
        have := congrArg UInt8.toNat h
        rw [UInt8.toNat_ofNat_of_lt' (show k < 256 by omega)] at this
        have h2 : UInt8.toNat 255 = 255 := rfl
        omega
      unfold String.utf8EncodeChar at h
      dsimp only at h
      split at h
      · exact ht _ (by omega) (List.cons_prefix_cons.1 h).1
      · split at h
        · exact ht _ (by omega) (List.cons_prefix_cons.1 h).1
        · split at h
          · exact ht _ (by omega) (List.cons_prefix_cons.1 h).1
          · exact ht _ (by omega) (List.cons_prefix_cons.1 h).1
  long := ⟨"aa".toList, by decide, by decide⟩

/-- An array of structs of integers. -/
def gridText : Str := "V: struct { x: int16, y: int16 }\nP: struct { id: uint32, vs: V[] }\nexport P".toList
def gridAst : AST :=
  [.decl "V".toList (.struct [("x".toList, ⟨"int16".toList, false, false⟩), ("y".toList, ⟨"int16".toList, false, false⟩)]),
   .decl "P".toList (.struct [("id".toList, ⟨"uint32".toList, false, false⟩), ("vs".toList, ⟨"V".toList, true, false⟩)]),
   .export "P".toList]
def gridV : RType := .struct [⟨"x".toList, "int16".toList, .builtin .int16, false, false⟩, ⟨"y".toList, "int16".toList, .builtin .int16, false, false⟩]
def gridExport : Artifact :=
  ⟨⟨"P".toList, [⟨"id".toList, "uint32".toList, .builtin .uint32, false, false⟩, ⟨"vs".toList, "V".toList, gridV, true, false⟩]⟩,
   exampleCode id gridText⟩

theorem grid_compiled : Compiled gridAst gridExport :=
  compiled_of (ord := id) (by decide +kernel) (fun _ => .refl _) rfl rfl

theorem grid_plain : PlainSchema gridAst := plain_of (by decide)

theorem grid_integers : Integers gridAst gridExport.name := by
  refine .struct (List.mem_cons_of_mem _ List.mem_cons_self) (by decide) fun f hf => ?_
  rcases List.mem_cons.1 hf with rfl | hf
  · exact .builtin (by decide) (by decide) (by decide)
  · rcases List.mem_cons.1 hf with rfl | hf
    · refine .struct List.mem_cons_self (by decide) fun f hf => ?_
      rcases List.mem_cons.1 hf with rfl | hf
      · exact .builtin (by decide) (by decide) (by decide)
      · rcases List.mem_cons.1 hf with rfl | hf
        · exact .builtin (by decide) (by decide) (by decide)
        · cases hf
    · cases hf

example : ¬ ∃ c, Better leUtf8 gridExport c :=
  C102_integers_partial leUtf8 grid_compiled (plain_usable grid_compiled grid_plain) leUtf8_delimiting leUtf8_textGap grid_integers

/-- A packet that consists of one enum cannot be shrunk; but the one of `sizedAst` can. -/
example : (¬ ∃ c, Better leUtf8 enumExport c) ∧ ∃ c, Better leUtf8 sizedExport c := by
  constructor
  · have hc := enum_compiled
    rw [C102_exact leUtf8 hc (plain_usable hc enum_plain) leUtf8_delimiting leUtf8_textGap, compiled_kind hc]
    decide
  · have hc := sized_compiled
    rw [C102_exact leUtf8 hc (plain_usable hc sized_plain) leUtf8_delimiting leUtf8_textGap, compiled_kind hc]
    decide

/-! ### an enum with one variant -/

def oneText : Str := "E: enum { A }\nP: struct { e: E }\nexport P".toList
def oneAst : AST :=
  [.decl "E".toList (.enum ["A".toList]), .decl "P".toList (.struct [("e".toList, ⟨"E".toList, false, false⟩)]), .export "P".toList]
def oneExport : Artifact :=
  ⟨⟨"P".toList, [⟨"e".toList, "E".toList, .enum ⟨.u8, [⟨"A".toList, 0⟩]⟩, false, false⟩]⟩, exampleCode id oneText⟩

theorem one_compiled : Compiled oneAst oneExport :=
  compiled_of (ord := id) (by decide +kernel) (fun _ => .refl _) rfl rfl

theorem one_plain : PlainSchema oneAst := plain_of (by decide)

/-- C102 is false: a packet that can only hold one value takes a byte. -/
theorem C102_false : ¬ C102_claim := by
  intro h
  have hc := one_compiled
  have hu := plain_usable hc one_plain
  refine h leUtf8 oneAst oneExport hc hu leUtf8_delimiting ?_
  rw [C102_exact leUtf8 hc hu leUtf8_delimiting leUtf8_textGap]
  have hf : KindFields oneAst [("e".toList, ⟨"E".toList, false, false⟩)] ((Kind.loose.field false false).and .none) :=
    .cons (.single List.mem_cons_self) .nil
  exact .struct (List.mem_cons_of_mem _ List.mem_cons_self) hf

end Packetc.Props
