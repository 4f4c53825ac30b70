import Verif.Spec.Files
import Mathlib.Data.List.Forall2
import Mathlib.Data.List.Nodup
import Mathlib.Tactic.Tauto
/-!
# Paths and the walk over the input directory
-/

namespace Packetc.Cli

/-! ### paths -/

theorem splitSlash_ne (p : Str) : splitSlash p ≠ [] := by
  cases p with
  | nil => simp [splitSlash]
  | cons c cs =>
    unfold splitSlash
    split
    · simp
    · split_ifs <;> simp

theorem splitSlash_slash (p : Str) : splitSlash ('/' :: p) = [] :: splitSlash p := by
  rw [splitSlash]
  cases h : splitSlash p with
  | nil => exact absurd h (splitSlash_ne p)
  | cons x xs => simp

theorem splitSlash_cons {c : Char} (hc : c ≠ '/') {p x : Str} {xs} (h : splitSlash p = x :: xs) :
    splitSlash (c :: p) = (c :: x) :: xs := by
  rw [splitSlash, h]; simp [hc]

theorem splitSlash_plain {n : Str} (h : '/' ∉ n) : splitSlash n = [n] := by
  induction n with
  | nil => rfl
  | cons c cs ih =>
    simp only [List.mem_cons, not_or] at h
    exact splitSlash_cons (Ne.symm h.1) (ih h.2)

theorem splitSlash_append (d n : Str) (h : '/' ∉ n) : splitSlash (d ++ "/".toList ++ n) = splitSlash d ++ [n] := by
  rw [show "/".toList = ['/'] by decide]
  induction d with
  | nil => simp [splitSlash_slash, splitSlash_plain h, splitSlash]
  | cons c cs ih =>
    by_cases hc : c = '/'
    · subst hc
      rw [List.cons_append, List.cons_append, splitSlash_slash, splitSlash_slash, ih]; rfl
    · cases hs : splitSlash cs with
      | nil => exact absurd hs (splitSlash_ne cs)
      | cons x xs =>
        rw [hs] at ih
        rw [List.cons_append, List.cons_append, splitSlash_cons hc ih, splitSlash_cons hc hs]; rfl

theorem parsePiece_valid {n : Str} (h : ValidName n) : parsePiece n = some (.normal n) := by
  obtain ⟨h1, h2, h3, h4⟩ := h
  unfold parsePiece
  rw [if_neg (by tauto), if_neg h4]

/-- The text of one component. -/
def Piece (n : Str) (c : Comp) : Prop := '/' ∉ n ∧ parsePiece n = some c

theorem piece_valid {n : Str} (h : ValidName n) : Piece n (.normal n) := ⟨h.2.1, parsePiece_valid h⟩

theorem piece_parent : Piece "..".toList .parent := ⟨by decide, by decide⟩

theorem splitSlash_single {d : Str} (h : splitSlash d = [[]]) : d = [] := by
  cases d with
  | nil => rfl
  | cons c cs =>
    cases hs : splitSlash cs with
    | nil => exact absurd hs (splitSlash_ne cs)
    | cons x xs =>
      by_cases hc : c = '/'
      · subst hc; rw [splitSlash_slash, hs] at h; simp at h
      · rw [splitSlash_cons hc hs] at h; simp at h

theorem components_append {d n : Str} {c : Comp} (hd : d ≠ []) (h : Piece n c) :
    components (d ++ "/".toList ++ n) = components d ++ [c] := by
  unfold components
  rw [splitSlash_append _ _ h.1]
  cases hs : splitSlash d with
  | nil => exact absurd hs (splitSlash_ne d)
  | cons x xs =>
    simp only [List.cons_append, List.filterMap_append, List.filterMap_cons, h.2, List.filterMap_nil]
    by_cases hx : x = []
    · have hxs : xs ≠ [] := by
        rintro rfl
        subst hx
        exact hd (splitSlash_single hs)
      simp [hx, hxs]
    · simp [hx]

theorem components_slash (d : Str) (hd : d ≠ []) : components (d ++ "/".toList) = components d := by
  have := splitSlash_append d [] (by simp)
  rw [List.append_nil] at this
  unfold components
  rw [this]
  cases hs : splitSlash d with
  | nil => exact absurd hs (splitSlash_ne d)
  | cons x xs =>
    have hp : parsePiece [] = none := rfl
    simp only [List.cons_append, List.filterMap_append, List.filterMap_cons, hp, List.filterMap_nil, List.append_nil]
    by_cases hx : x = []
    · have hxs : xs ≠ [] := by
        rintro rfl
        subst hx
        exact hd (splitSlash_single hs)
      simp [hx, hxs]
    · simp [hx]

theorem components_root_name {n : Str} {c : Comp} (h : Piece n c) : components ("/".toList ++ n) = [.root, c] := by
  unfold components
  rw [show "/".toList ++ n = '/' :: n from rfl, splitSlash_slash, splitSlash_plain h.1]
  simp [h.2]

theorem components_name {n : Str} {c : Comp} (h : Piece n c) : components n = [c] := by
  unfold components
  rw [splitSlash_plain h.1]
  have : n ≠ ".".toList := by
    rintro rfl
    exact absurd h.2 (by simp [parsePiece])
  simp only [if_neg this, ne_eq, not_true_eq_false, and_false, if_false, h.2]
  rfl

theorem components_piece {d n : Str} {c : Comp} (h : Piece n c) : components (join d n) = components d ++ [c] := by
  unfold join
  split_ifs with hc
  · by_cases hd : d = []
    · subst hd
      rw [List.nil_append, components_name h]; rfl
    · have hl : d.getLast? = some '/' := by tauto
      obtain ⟨d', rfl⟩ := List.getLast?_eq_some_iff.1 hl
      by_cases hd' : d' = []
      · subst hd'
        exact components_root_name h
      · have e1 := components_append hd' h
        have e2 := components_slash d' hd'
        rw [show "/".toList = ['/'] by decide] at e1 e2
        rw [e1, e2]
  · exact components_append (by tauto) h

theorem components_dot {d : Str} (hd : d ≠ []) : components (join d ".".toList) = components d := by
  have key : ∀ d : Str, d ≠ [] → components (d ++ "/".toList ++ ".".toList) = components d := by
    intro d hd
    have := splitSlash_append d ".".toList (by decide)
    unfold components
    rw [this]
    cases hs : splitSlash d with
    | nil => exact absurd hs (splitSlash_ne d)
    | cons x xs =>
      have hp : parsePiece ".".toList = none := by decide
      simp only [List.cons_append, List.filterMap_append, List.filterMap_cons, hp, List.filterMap_nil, List.append_nil]
      by_cases hx : x = []
      · have hxs : xs ≠ [] := by
          rintro rfl
          subst hx
          exact hd (splitSlash_single hs)
        simp [hx, hxs]
      · simp [hx]
  unfold join
  split_ifs with hc
  · have hl : d.getLast? = some '/' := by tauto
    obtain ⟨d', rfl⟩ := List.getLast?_eq_some_iff.1 hl
    by_cases hd' : d' = []
    · subst hd'
      decide
    · have e1 := key d' hd'
      have e2 := components_slash d' hd'
      rw [show "/".toList = ['/'] by decide] at e1 e2
      rw [e1, e2]
  · exact key d hd

theorem components_join {d n : Str} (h : ValidName n) : components (join d n) = components d ++ [.normal n] :=
  components_piece (piece_valid h)

/-! ### collecting components -/

/-- A component that can stand anywhere in a path. -/
def Plain : Comp → Prop
  | .root => False
  | .cur => False
  | .parent => True
  | .normal n => ValidName n

theorem splitSlash_mem {p n : Str} (h : n ∈ splitSlash p) : '/' ∉ n := by
  induction p generalizing n with
  | nil =>
    rw [show splitSlash [] = [[]] from rfl, List.mem_singleton] at h
    subst h
    simp
  | cons c cs ih =>
    cases hs : splitSlash cs with
    | nil => exact absurd hs (splitSlash_ne cs)
    | cons x xs =>
      rw [hs] at ih
      by_cases hc : c = '/'
      · subst hc
        rw [splitSlash_slash, hs] at h
        rcases List.mem_cons.1 h with rfl | h
        · simp
        · exact ih h
      · rw [splitSlash_cons hc hs] at h
        rcases List.mem_cons.1 h with rfl | h
        · have := ih (n := x) List.mem_cons_self
          simp only [List.mem_cons, not_or]
          exact ⟨Ne.symm hc, this⟩
        · exact ih (List.mem_cons_of_mem _ h)

theorem parsePiece_plain {n : Str} {c : Comp} (hn : '/' ∉ n) (h : parsePiece n = some c) : Plain c := by
  unfold parsePiece at h
  split_ifs at h with h1 h2
  · cases h; trivial
  · cases h
    exact ⟨fun h => h1 (.inl h), hn, fun h => h1 (.inr h), h2⟩

/-- The shape of a list of components: possibly the root or the current directory first, then plain components. -/
theorem components_shape (p : Str) : ∃ h l, components p = h ++ l ∧ (h = [] ∨ h = [.root] ∨ h = [.cur]) ∧ ∀ c ∈ l, Plain c := by
  unfold components
  cases hs : splitSlash p with
  | nil => exact absurd hs (splitSlash_ne p)
  | cons x xs =>
    have hx : '/' ∉ x := splitSlash_mem (by rw [hs]; exact List.mem_cons_self)
    have hxs : ∀ c ∈ xs.filterMap parsePiece, Plain c := by
      intro c hc
      obtain ⟨n, hn, hp⟩ := List.mem_filterMap.1 hc
      exact parsePiece_plain (splitSlash_mem (by rw [hs]; exact List.mem_cons_of_mem _ hn)) hp
    simp only
    split_ifs
    · exact ⟨[.cur], _, rfl, by simp, hxs⟩
    · exact ⟨[.root], _, rfl, by simp, hxs⟩
    · refine ⟨[], _, rfl, by simp, fun c hc => ?_⟩
      rcases List.mem_append.1 hc with hc | hc
      · exact parsePiece_plain hx (by simpa using hc)
      · exact hxs c hc

theorem collect_snoc (p : List Comp) (c : Comp) : collect (p ++ [c]) = pushComp (collect p) c := by
  simp [collect]

theorem components_push {d : Str} {c : Comp} (h : Plain c) : components (pushComp d c) = components d ++ [c] := by
  cases c with
  | root => exact h.elim
  | cur => exact h.elim
  | parent => exact components_piece piece_parent
  | normal n => exact components_piece (piece_valid h)

theorem components_collect_append {p l : List Comp} (hp : components (collect p) = p) (hl : ∀ c ∈ l, Plain c) :
    components (collect (p ++ l)) = p ++ l := by
  induction l generalizing p with
  | nil => rw [List.append_nil, hp]
  | cons c l ih =>
    rw [List.append_cons p c l]
    refine ih ?_ fun x hx => hl x (List.mem_cons_of_mem _ hx)
    rw [collect_snoc, components_push (hl c List.mem_cons_self), hp]

/-- The components of a path, collected, are the same path. -/
theorem components_collect (p : Str) : components (collect (components p)) = components p := by
  obtain ⟨h, l, h1, h2, h3⟩ := components_shape p
  rw [h1]
  refine components_collect_append ?_ h3
  rcases h2 with rfl | rfl | rfl <;> decide

theorem components_collect_plain (p : Str) {l : List Comp} (hl : ∀ c ∈ l, Plain c) :
    components (collect (components p ++ l)) = components p ++ l :=
  components_collect_append (components_collect p) hl

theorem components_valid {p n : Str} (h : Comp.normal n ∈ components p) : ValidName n := by
  obtain ⟨h0, l, h1, h2, h3⟩ := components_shape p
  rw [h1] at h
  rcases List.mem_append.1 h with h | h
  · rcases h2 with rfl | rfl | rfl <;> simp at h
  · exact h3 _ h

theorem components_below {d : Str} {p : List Str} (h : ∀ n ∈ p, ValidName n) :
    components (below d p) = components d ++ p.map Comp.normal := by
  induction p generalizing d with
  | nil => simp [below]
  | cons n p ih =>
    show components (below (join d n) p) = _
    rw [ih fun m hm => h m (List.mem_cons_of_mem _ hm), components_join (h n List.mem_cons_self)]
    simp

theorem fileName_append (p : List Comp) (n : Str) : fileName (p ++ [.normal n]) = some n := by
  simp [fileName]

theorem rsplitDot_append (b a : Str) (ha : '.' ∉ a) :
    rsplitDot (b ++ '.' :: a) = if b = [] then (some (b ++ '.' :: a), none) else (some b, some a) := by
  have h1 : ((b ++ '.' :: a).reverse.takeWhile (· ≠ '.')).reverse = a := by
    rw [List.reverse_append, List.reverse_cons, List.append_assoc, List.takeWhile_append_of_pos]
    · simp
    · intro c hc
      simp only [ne_eq, decide_not, Bool.not_eq_eq_eq_not, Bool.not_true, decide_eq_false_iff_not]
      rintro rfl
      exact ha (List.mem_reverse.1 hc)
  unfold rsplitDot
  simp only
  rw [h1]
  have h2 : (b ++ '.' :: a).length - a.length - 1 = b.length := by simp; omega
  rw [h2, List.take_left, if_neg (by simp)]

theorem dot_cases (n : Str) : '.' ∉ n ∨ ∃ b a, n = b ++ '.' :: a ∧ '.' ∉ a := by
  induction n with
  | nil => simp
  | cons c cs ih =>
    rcases ih with h | ⟨b, a, rfl, h⟩
    · by_cases hc : c = '.'
      · exact Or.inr ⟨[], cs, by rw [hc]; rfl, h⟩
      · exact Or.inl (by simp only [List.mem_cons, not_or]; exact ⟨Ne.symm hc, h⟩)
    · exact Or.inr ⟨c :: b, a, rfl, h⟩

theorem extension_iff (n ext : Str) (he : '.' ∉ ext) :
    extension n = some ext ↔ ∃ stem, n = stem ++ '.' :: ext ∧ stem ≠ [] := by
  constructor
  · intro h
    rcases dot_cases n with hn | ⟨b, a, rfl, ha⟩
    · unfold extension rsplitDot at h
      simp only at h
      rw [if_pos hn] at h
      cases h
    · unfold extension at h
      rw [rsplitDot_append b a ha] at h
      split_ifs at h with hb
      cases h
      exact ⟨b, rfl, hb⟩
  · rintro ⟨stem, rfl, hs⟩
    unfold extension
    rw [rsplitDot_append _ _ he, if_neg hs]

theorem extension_pkt (n : Str) : extension n = some "pkt".toList ↔ ∃ stem, n = stem ++ ".pkt".toList ∧ stem ≠ [] :=
  extension_iff n _ (by decide)

theorem fileStem_append {stem ext : Str} (he : '.' ∉ ext) (hs : stem ≠ []) : fileStem (stem ++ '.' :: ext) = stem := by
  unfold fileStem
  rw [rsplitDot_append _ _ he, if_neg hs]

theorem fileStem_plain {n : Str} (h : '.' ∉ n) : fileStem n = n := by
  unfold fileStem rsplitDot
  simp only
  rw [if_pos h]

theorem fileStem_ne {n : Str} (h : n ≠ []) : fileStem n ≠ [] := by
  rcases dot_cases n with hn | ⟨b, a, rfl, ha⟩
  · rwa [fileStem_plain hn]
  · unfold fileStem
    rw [rsplitDot_append b a ha]
    by_cases hb : b = []
    · rw [if_pos hb]
      exact h
    · rw [if_neg hb]
      exact hb

theorem fileStem_prefix (n : Str) : fileStem n <+: n := by
  rcases dot_cases n with hn | ⟨b, a, rfl, ha⟩
  · rw [fileStem_plain hn]
    exact List.prefix_refl _
  · unfold fileStem
    rw [rsplitDot_append b a ha]
    by_cases hb : b = []
    · rw [if_pos hb]
      exact List.prefix_refl _
    · rw [if_neg hb]
      exact List.prefix_append _ _

/-- Names that keep being names with another extension. -/
theorem valid_ext {stem x : Str} (hs : stem ≠ []) (hn : '/' ∉ stem) (hx : '/' ∉ x) (hx2 : x ≠ []) (hx3 : '.' ∉ x) :
    ValidName (stem ++ ".".toList ++ x) := by
  have hd : ".".toList = ['.'] := by decide
  have hdd : "..".toList = ['.', '.'] := by decide
  refine ⟨by simp [hs], by simp [hd, hn, hx], ?_, ?_⟩
  · intro h
    have := congrArg List.length h
    rw [hd] at this
    have h1 := List.length_pos_iff.2 hs
    have h2 := List.length_pos_iff.2 hx2
    simp at this
    omega
  · intro h
    have h1 : x <:+ "..".toList := ⟨_, h⟩
    obtain ⟨c, hc⟩ := List.exists_mem_of_ne_nil x hx2
    have := h1.subset hc
    rw [hdd] at this
    simp only [List.mem_cons, List.not_mem_nil, or_false, or_self] at this
    exact hx3 (this ▸ hc)

theorem components_collect_dropLast (p : Str) :
    components (collect (components p).dropLast) = (components p).dropLast := by
  obtain ⟨h, l, h1, h2, h3⟩ := components_shape p
  rw [h1]
  rcases List.eq_nil_or_concat l with rfl | ⟨l', c, rfl⟩
  · rcases h2 with rfl | rfl | rfl <;> decide
  · rw [List.concat_eq_append, ← List.append_assoc, List.dropLast_concat]
    refine components_collect_append ?_ fun c hc => h3 c (by simp [hc])
    rcases h2 with rfl | rfl | rfl <;> decide

theorem fileName_some {p : List Comp} {n : Str} (h : fileName p = some n) : p = p.dropLast ++ [.normal n] := by
  unfold fileName at h
  split at h
  · rename_i m hm
    cases h
    obtain ⟨q, rfl⟩ := List.getLast?_eq_some_iff.1 hm
    rw [List.dropLast_concat]
  · cases h

/-- What `with_extension` makes of a path. -/
theorem withExtension_components {text x : Str} (hx : '/' ∉ x) (hx2 : x ≠ []) (hx3 : '.' ∉ x) :
    (fileName (components text) = none ∧ withExtension text x = text) ∨
      ∃ n, fileName (components text) = some n ∧
        components (withExtension text x) = (components text).dropLast ++ [.normal (fileStem n ++ ".".toList ++ x)] := by
  unfold withExtension
  cases hn : fileName (components text) with
  | none => exact .inl ⟨rfl, rfl⟩
  | some n =>
    refine .inr ⟨n, rfl, ?_⟩
    have hv : ValidName n := components_valid (p := text) (by rw [fileName_some hn]; simp)
    refine components_collect_append (components_collect_dropLast text) fun c hc => ?_
    rw [List.mem_singleton.1 hc]
    exact valid_ext (fileStem_ne hv.1) (fun hc => hv.2.1 ((fileStem_prefix _).subset hc)) hx hx2 hx3

theorem withExtension_append (p : Str) {l : List Comp} (hl : ∀ c ∈ l, Plain c) {n : Str} (hn : ValidName n) {x : Str}
    (hx : '/' ∉ x) (hx2 : x ≠ []) (hx3 : '.' ∉ x) (hs : fileStem n ≠ []) (hs2 : '/' ∉ fileStem n) :
    withExtension (collect (components p ++ l ++ [.normal n])) x =
        collect (components p ++ l ++ [.normal (fileStem n ++ ".".toList ++ x)]) ∧
      components (withExtension (collect (components p ++ l ++ [.normal n])) x) =
        components p ++ l ++ [.normal (fileStem n ++ ".".toList ++ x)] := by
  have h1 : components (collect (components p ++ l ++ [.normal n])) = components p ++ l ++ [.normal n] := by
    rw [List.append_assoc]
    refine components_collect_plain p fun c hc => ?_
    rcases List.mem_append.1 hc with hc | hc
    · exact hl c hc
    · rw [List.mem_singleton.1 hc]; exact hn
  have h2 : withExtension (collect (components p ++ l ++ [.normal n])) x =
        collect (components p ++ l ++ [.normal (fileStem n ++ ".".toList ++ x)]) := by
    unfold withExtension
    rw [h1, fileName_append]
    simp only
    rw [List.dropLast_concat]
  refine ⟨h2, ?_⟩
  rw [h2, List.append_assoc]
  refine components_collect_plain p fun c hc => ?_
  rcases List.mem_append.1 hc with hc | hc
  · exact hl c hc
  · rw [List.mem_singleton.1 hc]; exact valid_ext hs hs2 hx hx2 hx3

theorem stripPrefix_append (a b : List Comp) : stripPrefix (a ++ b) a = some b := by
  unfold stripPrefix
  rw [if_pos (by simp [List.isPrefixOf_iff_prefix]), List.drop_left]

/-- Directory mode puts the output of `d/stem.pkt` at `d/stem.ts`. -/
theorem formatPathText_preserve (base out : Str) {d : List Str} {stem : Str} (hs : stem ≠ [])
    (h : ∀ n ∈ d ++ [stem ++ ".pkt".toList], ValidName n) :
    ∃ text, formatPathText (below base (d ++ [stem ++ ".pkt".toList])) base out .typeScript true = .ok text ∧
      components text = components out ++ d.map Comp.normal ++ [.normal (stem ++ ".ts".toList)] := by
  have hfs : fileStem (stem ++ ".pkt".toList) = stem := fileStem_append (ext := "pkt".toList) (by decide) hs
  have hv := h _ (List.mem_append_right _ List.mem_cons_self)
  obtain ⟨-, h2⟩ := withExtension_append out (l := d.map Comp.normal) (fun c hc => by
      obtain ⟨n, hn, rfl⟩ := List.mem_map.1 hc
      exact h n (List.mem_append_left _ hn)) hv (x := "ts".toList) (by decide) (by decide) (by decide)
    (by rw [hfs]; exact hs) (by rw [hfs]; exact fun hc => hv.2.1 (List.mem_append_left _ hc))
  rw [hfs, List.append_assoc stem] at h2
  refine ⟨_, ?_, h2⟩
  unfold formatPathText
  rw [if_pos rfl, components_below h, stripPrefix_append]
  simp only
  rw [List.map_append, ← List.append_assoc, List.map_singleton]
  rfl

theorem formatPath_preserve (base out : Str) {d : List Str} {stem : Str} (hs : stem ≠ [])
    (h : ∀ n ∈ d ++ [stem ++ ".pkt".toList], ValidName n) :
    formatPath (below base (d ++ [stem ++ ".pkt".toList])) base out .typeScript true =
      .ok (components out ++ d.map Comp.normal ++ [.normal (stem ++ ".ts".toList)]) := by
  obtain ⟨text, h1, h2⟩ := formatPathText_preserve base out hs h
  unfold formatPath
  rw [h1]
  show Outcome.ok (components text) = _
  rw [h2]

/-- Single-file mode, when the stem of the file is a possible name. -/
theorem formatPathText_single (out : Str) {file base n : Str} (hn : fileName (components file) = some n)
    (hv : ValidName (fileStem n)) :
    ∃ text, formatPathText file base out .typeScript false = .ok text ∧
      components text = components out ++ [.normal (fileStem (fileStem n) ++ ".ts".toList)] := by
  obtain ⟨-, h2⟩ := withExtension_append out (l := []) (fun c hc => by simp at hc) hv (x := "ts".toList)
    (by decide) (by decide) (by decide) (fileStem_ne hv.1) fun hc => hv.2.1 ((fileStem_prefix _).subset hc)
  rw [List.append_nil, List.append_assoc (fileStem (fileStem n))] at h2
  refine ⟨_, ?_, h2⟩
  unfold formatPathText
  rw [if_neg (by simp), hn]
  rfl

/-! ### the walk -/

/-- `s` is what `run_one` makes of the file. -/
def Made (env : Str → Env) (dir : Str) (x : List Str × Option Str) (s : Schema) : Prop :=
  s.path = below dir x.1 ∧ CompilesTo env dir x.1 x.2 s.generated

theorem bind_ok {α β : Type} {o : Outcome α} {f : α → Outcome β} {b : β} :
    o.bind f = .ok b ↔ ∃ a, o = .ok a ∧ f a = .ok b := by
  cases o <;> simp [Outcome.bind]

theorem runOne_ok {env : Str → Env} {path : Str} {c : Option Str} {s : Schema} :
    runOne env path c = .ok s ↔ s.path = path ∧ ∃ text, c = some text ∧ compile (env path) text = .ok s.generated := by
  unfold runOne
  cases c with
  | none => simp
  | some text =>
    simp only [Option.some.injEq, exists_eq_left']
    split
    · rename_i code hc
      rw [hc]
      cases s
      simp only [Outcome.ok.injEq, Schema.mk.injEq, CompileOutcome.ok.injEq]
      tauto
    all_goals (rename_i hc; simp [hc])

mutual
theorem visitFiles_ok (env : Str → Env) : (t : Tree) → t.Valid → ∀ path out out', (∃ es b, t = .dir es b) →
    (visitFiles env path t out = .ok out' ↔
      t.Accessible ∧ ∃ ss, out' = out ++ ss ∧ List.Forall₂ (Made env path) (schemaList t) ss)
  | .file _, _, _, _, _, h => by obtain ⟨_, _, h⟩ := h; cases h
  | .dir es b, hv, path, out, out', _ => by
    have ih := visitEntries_ok env es hv.2.1 hv.2.2 path out
    show (visitEntries env path es out).bind _ = _ ↔ (b = true ∧ AccessibleEntries es) ∧ ∃ ss, _ ∧ List.Forall₂ _ (schemaEntries es) ss
    rw [bind_ok]
    constructor
    · rintro ⟨a, h1, h2⟩
      cases b with
      | false => simp at h2
      | true =>
        simp only [if_true, Outcome.ok.injEq] at h2
        subst h2
        obtain ⟨h3, h4⟩ := (ih _).1 h1
        exact ⟨⟨rfl, h3⟩, h4⟩
    · rintro ⟨⟨rfl, h3⟩, h4⟩
      exact ⟨out', (ih _).2 ⟨h3, h4⟩, by simp⟩
theorem visitEntries_ok (env : Str → Env) : (es : List (EntryOf Tree)) → (∀ n ∈ es.map EntryOf.name, ValidName n) →
    ValidEntries es → ∀ path out out',
    (visitEntries env path es out = .ok out' ↔
      AccessibleEntries es ∧ ∃ ss, out' = out ++ ss ∧ List.Forall₂ (Made env path) (schemaEntries es) ss)
  | [], _, _, path, out, out' => by
    show (Outcome.ok out = .ok out') ↔ True ∧ ∃ ss, _ ∧ List.Forall₂ _ [] ss
    simp [eq_comm]
  | e :: es, hn, hv, path, out, out' => by
    have ih1 := visitEntry_ok env e (hn _ List.mem_cons_self) hv.1 path
    have ih2 := visitEntries_ok env es (fun n h => hn n (List.mem_cons_of_mem _ h)) hv.2 path
    show (visitEntry env path e out).bind _ = _ ↔ (AccessibleEntry e ∧ AccessibleEntries es) ∧ ∃ ss, _ ∧
      List.Forall₂ _ (schemaEntry e ++ schemaEntries es) ss
    rw [bind_ok]
    constructor
    · rintro ⟨a, h1, h2⟩
      obtain ⟨a1, s1, rfl, f1⟩ := (ih1 _ _).1 h1
      obtain ⟨a2, s2, rfl, f2⟩ := (ih2 _ _).1 h2
      exact ⟨⟨a1, a2⟩, s1 ++ s2, by rw [List.append_assoc], List.rel_append f1 f2⟩
    · rintro ⟨⟨a1, a2⟩, ss, rfl, hf⟩
      have f1 := List.forall₂_take (schemaEntry e).length hf
      have f2 := List.forall₂_drop (schemaEntry e).length hf
      rw [List.take_left] at f1
      rw [List.drop_left] at f2
      refine ⟨out ++ ss.take (schemaEntry e).length, (ih1 _ _).2 ⟨a1, _, rfl, f1⟩, (ih2 _ _).2 ⟨a2, _, ?_, f2⟩⟩
      rw [List.append_assoc, List.take_append_drop]
theorem visitEntry_ok (env : Str → Env) : (e : EntryOf Tree) → ValidName e.name → ValidEntry e → ∀ path out out',
    (visitEntry env path e out = .ok out' ↔
      AccessibleEntry e ∧ ∃ ss, out' = out ++ ss ∧ List.Forall₂ (Made env path) (schemaEntry e) ss)
  | ⟨n, u, .file c⟩, hn, hv, path, out, out' => by
    have hn : ValidName n := hn
    show (if (fileName (components (join path n))).bind extension = some "pkt".toList then
        if u then (runOne env (join path n) c).bind fun s => .ok (out ++ [s]) else .err .invalidPath
      else .ok out) = _ ↔ ((∃ stem, n = stem ++ ".pkt".toList ∧ stem ≠ []) → u = true) ∧ ∃ ss, _ ∧
        List.Forall₂ _ (if extension n = some "pkt".toList then [([n], c)] else []) ss
    rw [components_join hn, fileName_append, Option.bind_some, ← extension_pkt]
    by_cases hx : extension n = some "pkt".toList
    · rw [if_pos hx, if_pos hx]
      cases u with
      | false => simp [hx]
      | true =>
        simp only [if_true, bind_ok, runOne_ok, Outcome.ok.injEq, implies_true, true_and]
        constructor
        · rintro ⟨s, ⟨h1, h2⟩, rfl⟩
          exact ⟨[s], rfl, .cons ⟨h1, h2⟩ .nil⟩
        · rintro ⟨ss, rfl, hf⟩
          cases hf with
          | cons h1 h2 => cases h2; exact ⟨_, ⟨h1.1, h1.2⟩, rfl⟩
    · rw [if_neg hx, if_neg hx]
      simp only [Outcome.ok.injEq, hx, false_implies, true_and, List.forall₂_nil_left_iff, exists_eq_right, List.append_nil, eq_comm]
  | ⟨n, u, .dir es b⟩, hn, hv, path, out, out' => by
    have ih := visitFiles_ok env (.dir es b) hv (join path n) out out' ⟨es, b, rfl⟩
    show (if u then visitFiles env (join path n) (.dir es b) out else .panic) = _ ↔ (u = true ∧ Tree.Accessible (.dir es b)) ∧ ∃ ss, _ ∧
      List.Forall₂ _ ((schemaList (.dir es b)).map fun x => (n :: x.1, x.2)) ss
    cases u with
    | false => simp
    | true =>
      simp only [if_true, true_and]
      rw [ih]
      simp only [List.forall₂_map_left_iff]
      rfl
end

/-! ### what the walk finds -/

theorem at_ne_nil {es b p c} (h : At (.dir es b) p c) : p ≠ [] := by
  cases h; simp

theorem schema_cons {n : Str} {p : List Str} (hp : p ≠ []) :
    (∃ d stem, n :: p = d ++ [stem ++ ".pkt".toList] ∧ stem ≠ []) ↔
      ∃ d stem, p = d ++ [stem ++ ".pkt".toList] ∧ stem ≠ [] := by
  constructor
  · rintro ⟨d, stem, h, hs⟩
    cases d with
    | nil => simp only [List.nil_append, List.cons.injEq] at h; exact absurd h.2 hp
    | cons x d => simp only [List.cons_append, List.cons.injEq] at h; exact ⟨d, stem, h.2, hs⟩
  · rintro ⟨d, stem, rfl, hs⟩
    exact ⟨n :: d, stem, rfl, hs⟩

mutual
theorem mem_schemaList : (t : Tree) → (∃ es b, t = .dir es b) → ∀ x, x ∈ schemaList t ↔ SchemaAt t x.1 x.2
  | .file _, h => by obtain ⟨_, _, h⟩ := h; cases h
  | .dir es b, _ => fun x => by
    have ih := mem_schemaEntries es x
    show x ∈ schemaEntries es ↔ _
    rw [ih]
    constructor
    · rintro ⟨e, he, p, hx, ha, hs⟩
      exact ⟨by rw [hx]; exact .dir es b e p _ he ha, hs⟩
    · rintro ⟨ha, hs⟩
      obtain ⟨q, c⟩ := x
      cases ha with
      | dir _ _ e p _ he ha => exact ⟨e, he, p, rfl, ha, hs⟩
theorem mem_schemaEntries : (es : List (EntryOf Tree)) → ∀ x, x ∈ schemaEntries es ↔
    ∃ e ∈ es, ∃ p, x.1 = e.name :: p ∧ At e.node p x.2 ∧ ∃ d stem, x.1 = d ++ [stem ++ ".pkt".toList] ∧ stem ≠ []
  | [] => fun x => by simp [schemaEntries]
  | e :: es => fun x => by
    have ih1 := mem_schemaEntry e x
    have ih2 := mem_schemaEntries es x
    rw [schemaEntries, List.mem_append, ih1, ih2]
    simp only [List.mem_cons, exists_eq_or_imp]
theorem mem_schemaEntry : (e : EntryOf Tree) → ∀ x, x ∈ schemaEntry e ↔
    ∃ p, x.1 = e.name :: p ∧ At e.node p x.2 ∧ ∃ d stem, x.1 = d ++ [stem ++ ".pkt".toList] ∧ stem ≠ []
  | ⟨n, u, .file c⟩ => fun x => by
    show x ∈ (if extension n = some "pkt".toList then [([n], c)] else []) ↔ _
    obtain ⟨q, c'⟩ := x
    constructor
    · intro h
      split_ifs at h with hx
      · simp only [List.mem_singleton, Prod.mk.injEq] at h
        obtain ⟨rfl, rfl⟩ := h
        obtain ⟨stem, hn, hs⟩ := (extension_pkt n).1 hx
        exact ⟨[], rfl, .file _, [], stem, by rw [hn]; rfl, hs⟩
      · simp at h
    · rintro ⟨p, hq, ha, d, stem, hd, hs⟩
      simp only at hq ha hd
      cases ha
      subst hq
      have hd' : d = [] ∧ n = stem ++ ".pkt".toList := by
        cases d with
        | nil => simp only [List.nil_append, List.cons.injEq, and_true] at hd; exact ⟨rfl, hd⟩
        | cons y d => simp at hd
      rw [if_pos ((extension_pkt n).2 ⟨stem, hd'.2, hs⟩)]
      exact List.mem_singleton.2 rfl
  | ⟨n, u, .dir es b⟩ => fun x => by
    have ih := mem_schemaList (.dir es b) ⟨es, b, rfl⟩
    show x ∈ (schemaList (.dir es b)).map (fun x => (n :: x.1, x.2)) ↔ _
    rw [List.mem_map]
    constructor
    · rintro ⟨y, hy, rfl⟩
      obtain ⟨ha, hs⟩ := (ih y).1 hy
      exact ⟨y.1, rfl, ha, (schema_cons (at_ne_nil ha)).2 hs⟩
    · rintro ⟨p, hx, ha, hs⟩
      obtain ⟨q, c⟩ := x
      simp only at hx ha hs
      subst hx
      exact ⟨(p, c), (ih _).2 ⟨ha, (schema_cons (at_ne_nil ha)).1 hs⟩, rfl⟩
end

mutual
theorem nodup_schemaList : (t : Tree) → t.Valid → ((schemaList t).map Prod.fst).Nodup
  | .file _, _ => by simp [schemaList]
  | .dir es b, h => nodup_schemaEntries es h.1 h.2.2
theorem nodup_schemaEntries : (es : List (EntryOf Tree)) → (es.map EntryOf.name).Nodup → ValidEntries es →
    ((schemaEntries es).map Prod.fst).Nodup
  | [], _, _ => by simp [schemaEntries]
  | e :: es, hn, hv => by
    have ih1 := nodup_schemaEntry e hv.1
    rw [List.map_cons, List.nodup_cons] at hn
    have ih2 := nodup_schemaEntries es hn.2 hv.2
    rw [schemaEntries, List.map_append, List.nodup_append]
    refine ⟨ih1, ih2, ?_⟩
    rintro a ha b hb rfl
    obtain ⟨x, hx, rfl⟩ := List.mem_map.1 ha
    obtain ⟨y, hy, he⟩ := List.mem_map.1 hb
    obtain ⟨p, hp, _⟩ := (mem_schemaEntry e x).1 hx
    obtain ⟨e', he', p', hp', _⟩ := (mem_schemaEntries es y).1 hy
    rw [hp', hp] at he
    simp only [List.cons.injEq] at he
    exact hn.1 (he.1 ▸ List.mem_map_of_mem he')
theorem nodup_schemaEntry : (e : EntryOf Tree) → ValidEntry e → ((schemaEntry e).map Prod.fst).Nodup
  | ⟨n, u, .file c⟩, _ => by
    show ((if extension n = some "pkt".toList then [([n], c)] else []).map Prod.fst).Nodup
    split_ifs <;> simp
  | ⟨n, u, .dir es b⟩, h => by
    have ih := nodup_schemaList (.dir es b) h
    show (((schemaList (.dir es b)).map (fun x => (n :: x.1, x.2))).map Prod.fst).Nodup
    rw [List.map_map]
    rw [show (Prod.fst ∘ fun x : List Str × Option Str => (n :: x.1, x.2)) = (fun p => n :: p) ∘ Prod.fst from rfl,
      ← List.map_map]
    exact ih.map fun a b h => (List.cons.inj h).2
end

theorem validEntries_iff (es : List (EntryOf Tree)) : ValidEntries es ↔ ∀ e ∈ es, e.node.Valid := by
  induction es with
  | nil => simp [ValidEntries]
  | cons e es ih => rw [ValidEntries, ih]; cases e; simp [ValidEntry]

theorem accessibleEntries_iff (es : List (EntryOf Tree)) : AccessibleEntries es ↔ ∀ e ∈ es, AccessibleEntry e := by
  induction es with
  | nil => simp [AccessibleEntries]
  | cons e es ih => rw [AccessibleEntries, ih]; simp

theorem at_valid {t p c} (h : At t p c) : t.Valid → ∀ n ∈ p, ValidName n := by
  induction h with
  | file => simp
  | dir es b e p c he _ ih =>
    intro hv n hn
    rcases List.mem_cons.1 hn with rfl | hn
    · exact hv.2.1 _ (List.mem_map_of_mem he)
    · exact ih ((validEntries_iff es).1 hv.2.2 e he) n hn

theorem below_inj {dir : Str} {p p' : List Str} (h : ∀ n ∈ p, ValidName n) (h' : ∀ n ∈ p', ValidName n)
    (he : below dir p = below dir p') : p = p' := by
  have := congrArg components he
  rw [components_below h, components_below h'] at this
  exact List.map_injective_iff.2 (fun a b h => by cases h; rfl) (List.append_cancel_left this)

theorem outPath_unique {out p q q'} (h : OutPath out p q) (h' : OutPath out p q') : q = q' := by
  obtain ⟨d, s, hp, rfl⟩ := h
  obtain ⟨d', s', hp', rfl⟩ := h'
  rw [hp] at hp'
  obtain ⟨rfl, h2⟩ := List.append_inj' hp' rfl
  simp only [List.cons.injEq, and_true] at h2
  rw [List.append_cancel_right h2]

theorem outPath_inj {out p p' q} (h : OutPath out p q) (h' : OutPath out p' q) : p = p' := by
  obtain ⟨d, s, rfl, rfl⟩ := h
  obtain ⟨d', s', rfl, hq⟩ := h'
  obtain ⟨h1, h2⟩ := List.append_inj' hq rfl
  simp only [List.cons.injEq, Comp.normal.injEq, and_true] at h2
  rw [List.append_cancel_right h2,
    List.map_injective_iff.2 (fun a b h => by cases h; rfl) (List.append_cancel_left h1)]

/-! ### the results of the walk -/

theorem runAll_ok {env : Str → Env} {dir : Str} {es b ss} (hv : (Tree.dir es b).Valid) :
    runAll env dir (.dir es b) = .ok ss ↔
      (Tree.dir es b).Accessible ∧ List.Forall₂ (Made env dir) (schemaList (.dir es b)) ss := by
  unfold runAll
  rw [visitFiles_ok env _ hv dir [] ss ⟨es, b, rfl⟩]
  simp

theorem forall2_mem {α β : Type} {R : α → β → Prop} {l : List α} {l' : List β} (h : List.Forall₂ R l l') :
    (∀ a ∈ l, ∃ b ∈ l', R a b) ∧ ∀ b ∈ l', ∃ a ∈ l, R a b := by
  induction h with
  | nil => simp
  | cons h _ ih =>
    constructor
    · intro a ha
      rcases List.mem_cons.1 ha with rfl | ha
      · exact ⟨_, List.mem_cons_self, h⟩
      · obtain ⟨b, hb, hr⟩ := ih.1 a ha; exact ⟨b, List.mem_cons_of_mem _ hb, hr⟩
    · intro b hb
      rcases List.mem_cons.1 hb with rfl | hb
      · exact ⟨_, List.mem_cons_self, h⟩
      · obtain ⟨a, ha, hr⟩ := ih.2 b hb; exact ⟨a, List.mem_cons_of_mem _ ha, hr⟩

theorem forall2_exists {α β : Type} {R : α → β → Prop} {l : List α} (h : ∀ a ∈ l, ∃ b, R a b) :
    ∃ l', List.Forall₂ R l l' := by
  induction l with
  | nil => exact ⟨[], .nil⟩
  | cons a l ih =>
    obtain ⟨b, hb⟩ := h a List.mem_cons_self
    obtain ⟨l', hl⟩ := ih fun x hx => h x (List.mem_cons_of_mem _ hx)
    exact ⟨b :: l', .cons hb hl⟩

/-- The walk succeeds exactly when everything can be listed and every schema compiles. -/
theorem runAll_succeeds {env : Str → Env} {dir : Str} {es b} (hv : (Tree.dir es b).Valid) :
    (∃ ss, runAll env dir (.dir es b) = .ok ss) ↔
      (Tree.dir es b).Accessible ∧ ∀ p c, SchemaAt (.dir es b) p c → ∃ code, CompilesTo env dir p c code := by
  simp only [runAll_ok hv]
  constructor
  · rintro ⟨ss, ha, hf⟩
    refine ⟨ha, fun p c hs => ?_⟩
    obtain ⟨s, _, hm⟩ := (forall2_mem hf).1 (p, c) ((mem_schemaList _ ⟨es, b, rfl⟩ _).2 hs)
    exact ⟨_, hm.2⟩
  · rintro ⟨ha, hc⟩
    obtain ⟨ss, hf⟩ := forall2_exists (R := Made env dir) (l := schemaList (.dir es b)) fun x hx => by
      obtain ⟨code, h⟩ := hc x.1 x.2 ((mem_schemaList _ ⟨es, b, rfl⟩ _).1 hx)
      exact ⟨⟨below dir x.1, code⟩, rfl, h⟩
    exact ⟨ss, ha, hf⟩

theorem runAll_mem {env : Str → Env} {dir : Str} {es b ss} (hv : (Tree.dir es b).Valid)
    (h : runAll env dir (.dir es b) = .ok ss) (s : Schema) :
    s ∈ ss ↔ ∃ p c, SchemaAt (.dir es b) p c ∧ s.path = below dir p ∧ CompilesTo env dir p c s.generated := by
  obtain ⟨_, hf⟩ := (runAll_ok hv).1 h
  constructor
  · intro hs
    obtain ⟨x, hx, hm⟩ := (forall2_mem hf).2 s hs
    exact ⟨x.1, x.2, (mem_schemaList _ ⟨es, b, rfl⟩ _).1 hx, hm.1, hm.2⟩
  · rintro ⟨p, c, hs, hp, t, ht, hc⟩
    obtain ⟨s', hs', hm1, t', ht', hc'⟩ := (forall2_mem hf).1 (p, c) ((mem_schemaList _ ⟨es, b, rfl⟩ _).2 hs)
    simp only at hm1 ht' hc'
    rw [ht] at ht'
    cases ht'
    rw [hc] at hc'
    cases s; cases s'
    simp only at hp hm1 hc'
    cases hc'
    rw [hp, ← hm1]
    exact hs'

theorem runAll_nodup {env : Str → Env} {dir : Str} {es b ss} (hv : (Tree.dir es b).Valid)
    (h : runAll env dir (.dir es b) = .ok ss) : (ss.map Schema.path).Nodup := by
  obtain ⟨_, hf⟩ := (runAll_ok hv).1 h
  have hp : ss.map Schema.path = ((schemaList (.dir es b)).map Prod.fst).map (below dir) := by
    clear h hv
    generalize schemaList (.dir es b) = l at hf
    induction hf with
    | nil => rfl
    | cons h _ ih => simp only [List.map_cons, ih, h.1]
  rw [hp]
  refine List.Nodup.map_on ?_ (nodup_schemaList _ hv)
  intro p hp p' hp' he
  obtain ⟨x, hx, rfl⟩ := List.mem_map.1 hp
  obtain ⟨y, hy, rfl⟩ := List.mem_map.1 hp'
  exact below_inj (at_valid ((mem_schemaList _ ⟨es, b, rfl⟩ _).1 hx).1 hv)
    (at_valid ((mem_schemaList _ ⟨es, b, rfl⟩ _).1 hy).1 hv) he

/-! ### listing order -/

theorem reordered_at {t t'} (h : Reordered t t') : ∀ p c, At t p c → At t' p c := by
  induction h with
  | file => exact fun _ _ h => h
  | dir es es' b f h1 h2 hn hr ih =>
    intro p c ha
    cases ha with
    | dir _ _ e p _ he ha =>
      obtain ⟨x, hx, rfl⟩ := List.mem_map.1 (h1.mem_iff.1 he)
      rw [(hn x hx).1]
      exact .dir _ _ _ _ _ (h2.mem_iff.2 (List.mem_map_of_mem hx)) (ih x hx _ _ ha)

theorem reordered_symm {t t'} (h : Reordered t t') : Reordered t' t := by
  induction h with
  | file c => exact .file c
  | dir es es' b f h1 h2 hn hr ih =>
    refine .dir es' es b (f.map Prod.swap) ?_ ?_ ?_ ?_
    · rw [List.map_map]; exact h2
    · rw [List.map_map]; exact h1
    · intro p hp
      obtain ⟨q, hq, rfl⟩ := List.mem_map.1 hp
      exact ⟨(hn q hq).1.symm, (hn q hq).2.symm⟩
    · intro p hp
      obtain ⟨q, hq, rfl⟩ := List.mem_map.1 hp
      exact ih q hq

theorem reordered_accessible {t t'} (h : Reordered t t') : t.Accessible → t'.Accessible := by
  induction h with
  | file => exact id
  | dir es es' b f h1 h2 hn hr ih =>
    rintro ⟨hb, ha⟩
    refine ⟨hb, (accessibleEntries_iff _).2 fun e' he' => ?_⟩
    obtain ⟨x, hx, rfl⟩ := List.mem_map.1 (h2.mem_iff.1 he')
    have h3 := (accessibleEntries_iff _).1 ha x.1 (h1.mem_iff.2 (List.mem_map_of_mem hx))
    have h4 := ih x hx
    have h5 := hn x hx
    have h6 := hr x hx
    obtain ⟨⟨n, u, t⟩, ⟨n', u', t'⟩⟩ := x
    simp only at h3 h4 h5 h6 ⊢
    obtain ⟨rfl, rfl⟩ := h5
    cases h6 with
    | file c => exact h3
    | dir => exact ⟨h3.1, h4 h3.2⟩

theorem reordered_valid {t t'} (h : Reordered t t') : t.Valid → t'.Valid := by
  induction h with
  | file => exact id
  | dir es es' b f h1 h2 hn hr ih =>
    rintro ⟨ha, hb, hc⟩
    have hm : (es.map EntryOf.name).Perm (es'.map EntryOf.name) := by
      refine (h1.map _).trans (List.Perm.trans ?_ (h2.map _).symm)
      rw [List.map_map, List.map_map]
      refine List.Perm.of_eq (List.map_congr_left fun x hx => (hn x hx).1)
    refine ⟨hm.nodup_iff.1 ha, fun n h => hb n (hm.mem_iff.2 h), (validEntries_iff _).2 fun e he => ?_⟩
    obtain ⟨x, hx, rfl⟩ := List.mem_map.1 (h2.mem_iff.1 he)
    exact ih x hx ((validEntries_iff _).1 hc _ (h1.mem_iff.2 (List.mem_map_of_mem hx)))

theorem runAll_reordered {env : Str → Env} {dir : Str} {es b es' b' ss} (hv : (Tree.dir es b).Valid)
    (hr : Reordered (.dir es b) (.dir es' b')) (h : runAll env dir (.dir es b) = .ok ss) :
    ∃ ss', runAll env dir (.dir es' b') = .ok ss' ∧ ss.Perm ss' := by
  have hv' := reordered_valid hr hv
  obtain ⟨ha, hc⟩ := (runAll_succeeds hv).1 ⟨ss, h⟩
  obtain ⟨ss', h'⟩ := (runAll_succeeds (env := env) (dir := dir) hv').2 ⟨reordered_accessible hr ha, fun p c hs =>
    hc p c ⟨reordered_at (reordered_symm hr) _ _ hs.1, hs.2⟩⟩
  refine ⟨ss', h', ?_⟩
  refine (List.perm_ext_iff_of_nodup (runAll_nodup hv h).of_map (runAll_nodup hv' h').of_map).2 fun s => ?_
  rw [runAll_mem hv h, runAll_mem hv' h']
  constructor
  · rintro ⟨p, c, hs, h⟩
    exact ⟨p, c, ⟨reordered_at hr _ _ hs.1, hs.2⟩, h⟩
  · rintro ⟨p, c, hs, h⟩
    exact ⟨p, c, ⟨reordered_at (reordered_symm hr) _ _ hs.1, hs.2⟩, h⟩

/-! ### saving -/

/-- The `k`-th save succeeds. -/
def Disk.Fine (d : Disk) (k : Nat) : Prop := d.mkdir k = true ∧ d.write k = none

/-- Every schema has its output path. -/
def Placed (base out : Str) (ss : List Schema) (qs : List (List Comp)) : Prop :=
  List.Forall₂ (fun s q => formatPath s.path base out .typeScript true = .ok q) ss qs

theorem saveOne_fine {d : Disk} {k s q st} (h : d.Fine k) : saveOne d k s q st = (.ok (), st.set q (some s.generated)) := by
  unfold saveOne
  rw [h.1, h.2]; rfl

theorem saveAll_fine {disk : Disk} {base out : Str} {ss qs} (hp : Placed base out ss qs) (hn : qs.Nodup) :
    ∀ k st, (∀ j < ss.length, disk.Fine (k + j)) → ∃ st', saveAll disk base out .typeScript k ss st = (.ok (), st') ∧
      (∀ (j : Nat) (s : Schema) q, ss[j]? = some s → qs[j]? = some q → st' q = some s.generated) ∧ ∀ q, q ∉ qs → st' q = st q := by
  induction hp with
  | nil => intro k st _; exact ⟨st, rfl, by simp, by simp⟩
  | @cons s q ss qs h hf ih =>
    intro k st hd
    rw [List.nodup_cons] at hn
    obtain ⟨st', h1, h2, h3⟩ := ih hn.2 (k + 1) (st.set q (some s.generated)) fun j hj => by
      have := hd (j + 1) (by simp; omega)
      rwa [show k + 1 + j = k + (j + 1) by omega]
    refine ⟨st', ?_, ?_, ?_⟩
    · unfold saveAll
      rw [h]
      simp only
      rw [saveOne_fine (by simpa using hd 0 (by simp))]
      exact h1
    · intro j s' q' hs hq
      cases j with
      | zero =>
        simp only [List.getElem?_cons_zero, Option.some.injEq] at hs hq
        subst hs; subst hq
        rw [h3 _ hn.1]
        simp [Store.set]
      | succ j => exact h2 j s' q' (by simpa using hs) (by simpa using hq)
    · intro q' hq'
      simp only [List.mem_cons, not_or] at hq'
      rw [h3 _ hq'.2]
      simp [Store.set, hq'.1]

theorem saveAll_fails {disk : Disk} {base out : Str} {ss qs} (hp : Placed base out ss qs) (hn : qs.Nodup) :
    ∀ k m st, m < ss.length → (∀ j < m, disk.Fine (k + j)) → ¬ disk.Fine (k + m) →
      ∃ st', saveAll disk base out .typeScript k ss st = (.err .io, st') ∧
        (∀ (j : Nat) (s : Schema) q, ss[j]? = some s → qs[j]? = some q → j < m → st' q = some s.generated) ∧
        (∀ j q, qs[j]? = some q → m < j → st' q = st q) ∧
        (∀ q, qs[m]? = some q → disk.mkdir (k + m) = false → st' q = st q) ∧
        (∀ q left, qs[m]? = some q → disk.mkdir (k + m) = true → disk.write (k + m) = some left → st' q = left) ∧
        ∀ q, q ∉ qs → st' q = st q := by
  induction hp with
  | nil => intro k m st h; simp at h
  | @cons s q ss qs h hf ih =>
    intro k m st hm hd hbad
    rw [List.nodup_cons] at hn
    cases m with
    | succ m =>
      obtain ⟨st', h1, h2, h3, h4, h5, h6⟩ := ih hn.2 (k + 1) m (st.set q (some s.generated)) (by simpa using hm)
        (fun j hj => by rw [show k + 1 + j = k + (j + 1) by omega]; exact hd (j + 1) (by omega))
        (by rwa [show k + 1 + m = k + (m + 1) by omega])
      rw [show k + 1 + m = k + (m + 1) by omega] at h4 h5
      have hset : ∀ q', q' ∈ qs → st.set q (some s.generated) q' = st q' := by
        intro q' hq'
        simp only [Store.set]
        rw [if_neg]
        rintro rfl
        exact hn.1 hq'
      refine ⟨st', ?_, ?_, ?_, ?_, ?_, ?_⟩
      · unfold saveAll
        rw [h]
        simp only
        rw [saveOne_fine (by simpa using hd 0 (by simp))]
        exact h1
      · intro j s' q' hs hq hj
        cases j with
        | zero =>
          simp only [List.getElem?_cons_zero, Option.some.injEq] at hs hq
          subst hs; subst hq
          rw [h6 _ hn.1]
          simp [Store.set]
        | succ j => exact h2 j s' q' (by simpa using hs) (by simpa using hq) (by omega)
      · intro j q' hq hj
        cases j with
        | zero => omega
        | succ j =>
          have hq : qs[j]? = some q' := by simpa using hq
          rw [h3 j q' hq (by omega)]
          exact hset _ (List.mem_of_getElem? hq)
      · intro q' hq hmk
        have hq : qs[m]? = some q' := by simpa using hq
        rw [h4 q' hq hmk]
        exact hset _ (List.mem_of_getElem? hq)
      · intro q' left hq hmk hw
        exact h5 q' left (by simpa using hq) hmk hw
      · intro q' hq'
        simp only [List.mem_cons, not_or] at hq'
        rw [h6 _ hq'.2]
        simp [Store.set, hq'.1]
    | zero =>
      rw [Nat.add_zero] at hbad
      have hrest : ∀ (v : Option Str) q', q' ∈ qs → st.set q v q' = st q' := by
        intro v q' hq'
        simp only [Store.set]
        rw [if_neg]
        rintro rfl
        exact hn.1 hq'
      have hother : ∀ (v : Option Str) q', q' ∉ q :: qs → st.set q v q' = st q' := by
        intro v q' hq'
        simp only [List.mem_cons, not_or] at hq'
        simp [Store.set, hq'.1]
      have hlater : ∀ j q', (q :: qs)[j]? = some q' → 0 < j → q' ∈ qs := by
        intro j q' hq hj
        cases j with
        | zero => omega
        | succ j => exact List.mem_of_getElem? (by simpa using hq)
      cases hmk : disk.mkdir k with
      | false =>
        refine ⟨st, ?_, fun j _ _ _ _ hj => absurd hj (Nat.not_lt_zero j), fun _ _ _ _ => rfl, fun _ _ _ => rfl, ?_, fun _ _ => rfl⟩
        · unfold saveAll
          rw [h]
          simp only
          unfold saveOne
          simp [hmk]
        · intro _ _ _ hc _
          cases hc
      | true =>
        cases hw : disk.write k with
        | none => exact absurd ⟨hmk, hw⟩ hbad
        | some left =>
          refine ⟨st.set q left, ?_, fun j _ _ _ _ hj => absurd hj (Nat.not_lt_zero j), ?_, ?_, ?_, hother left⟩
          · unfold saveAll
            rw [h]
            simp only
            unfold saveOne
            simp [hmk, hw]
          · intro j q' hq hj
            exact hrest left q' (hlater j q' hq hj)
          · intro _ _ hc
            cases hc
          · intro q' left' hq _ hw'
            cases hw'
            simp only [List.getElem?_cons_zero, Option.some.injEq] at hq
            simp [Store.set, hq]

/-- All compiled schemas have their places, which are different. -/
theorem runAll_placed {env : Str → Env} {dir out : Str} {es b ss} (hv : (Tree.dir es b).Valid)
    (h : runAll env dir (.dir es b) = .ok ss) :
    ∃ qs, Placed dir out ss qs ∧ qs.Nodup ∧ qs.length = ss.length ∧
      ∀ (j : Nat) (s : Schema) q, ss[j]? = some s → qs[j]? = some q →
        ∃ p c, SchemaAt (.dir es b) p c ∧ s.path = below dir p ∧ OutPath out p q := by
  have key : ∀ s ∈ ss, ∃ q, formatPath s.path dir out .typeScript true = .ok q ∧
      ∃ p c, SchemaAt (.dir es b) p c ∧ s.path = below dir p ∧ OutPath out p q := by
    intro s hs
    obtain ⟨p, c, hsa, hp, _⟩ := (runAll_mem hv h s).1 hs
    have hn := at_valid hsa.1 hv
    obtain ⟨d, stem, rfl, hst⟩ := hsa.2
    refine ⟨_, by rw [hp]; exact formatPath_preserve dir out hst hn, _, c, hsa, hp, d, stem, rfl, rfl⟩
  obtain ⟨qs, hq⟩ := forall2_exists key
  have hpl : Placed dir out ss qs := hq.imp fun _ _ h => h.1
  have hlen := hq.length_eq
  have hall : ∀ (j : Nat) (s : Schema) q, ss[j]? = some s → qs[j]? = some q →
      ∃ p c, SchemaAt (.dir es b) p c ∧ s.path = below dir p ∧ OutPath out p q := by
    intro j s q hs hq'
    obtain ⟨h1, rfl⟩ := List.getElem?_eq_some_iff.1 hs
    obtain ⟨h2, rfl⟩ := List.getElem?_eq_some_iff.1 hq'
    exact ((List.forall₂_iff_get.1 hq).2 j h1 h2).2
  refine ⟨qs, hpl, ?_, hlen.symm, hall⟩
  rw [List.nodup_iff_injective_get]
  intro i j hij
  obtain ⟨i, hi⟩ := i
  obtain ⟨j, hj⟩ := j
  have hi' : i < ss.length := hlen ▸ hi
  have hj' : j < ss.length := hlen ▸ hj
  obtain ⟨p, c, _, h1, h2⟩ := hall i ss[i] qs[i] (List.getElem?_eq_getElem hi') (List.getElem?_eq_getElem hi)
  obtain ⟨p', c', _, h1', h2'⟩ := hall j ss[j] qs[j] (List.getElem?_eq_getElem hj') (List.getElem?_eq_getElem hj)
  have hij : qs[i] = qs[j] := hij
  rw [hij] at h2
  have hpp := outPath_inj h2 h2'
  have hpath : ss[i].path = ss[j].path := by rw [h1, h1', hpp]
  have hnd := runAll_nodup hv h
  have := (List.Nodup.getElem_inj_iff hnd (i := i) (j := j) (hi := by simpa using hi') (hj := by simpa using hj')).1
    (by simpa using hpath)
  exact Fin.ext this

theorem main_dir {env disk dir out es b st ss} (h : runAll env dir (.dir es b) = .ok ss) :
    main env disk .typeScript dir out (some (.dir es b)) st = saveAll disk dir out .typeScript 0 ss st := by
  unfold main
  simp only
  rw [h]

theorem main_dir_not {env disk dir out es b st} (h : ¬ ∃ ss, runAll env dir (.dir es b) = .ok ss) :
    ∃ o, main env disk .typeScript dir out (some (.dir es b)) st = (o, st) ∧ o ≠ .ok () := by
  unfold main
  simp only
  cases hr : runAll env dir (.dir es b) with
  | ok ss => exact absurd ⟨ss, hr⟩ h
  | err e => exact ⟨_, rfl, by simp⟩
  | panic => exact ⟨_, rfl, by simp⟩
  | diverge => exact ⟨_, rfl, by simp⟩

/-! ### the walk returns -/

/-- The function returned: it did not panic and did not run forever. -/
def Outcome.Returns {α : Type} (o : Outcome α) : Prop := (∃ a, o = .ok a) ∨ ∃ e, o = .err e

theorem Outcome.returns_bind {α β : Type} {o : Outcome α} {f : α → Outcome β} (h : o.Returns) (hf : ∀ a, (f a).Returns) :
    (o.bind f).Returns := by
  rcases h with ⟨a, rfl⟩ | ⟨e, rfl⟩
  · exact hf a
  · exact .inr ⟨e, rfl⟩

mutual
theorem visitFiles_returns {env : Str → Env} (h1 : ∀ p c, (runOne env p c).Returns) : (t : Tree) → t.Utf8 →
    ∀ path out, (visitFiles env path t out).Returns
  | .file _, _, _, out => .inl ⟨out, rfl⟩
  | .dir es b, hu, path, out => by
    refine Outcome.returns_bind (visitEntries_returns h1 es hu path out) fun a => ?_
    cases b
    · exact .inr ⟨_, rfl⟩
    · exact .inl ⟨_, rfl⟩
theorem visitEntries_returns {env : Str → Env} (h1 : ∀ p c, (runOne env p c).Returns) : (es : List (EntryOf Tree)) →
    Utf8Entries es → ∀ path out, (visitEntries env path es out).Returns
  | [], _, _, out => .inl ⟨out, rfl⟩
  | e :: es, hu, path, out =>
    Outcome.returns_bind (visitEntry_returns h1 e hu.1 path out) fun a => visitEntries_returns h1 es hu.2 path a
theorem visitEntry_returns {env : Str → Env} (h1 : ∀ p c, (runOne env p c).Returns) : (e : EntryOf Tree) →
    Utf8Entry e → ∀ path out, (visitEntry env path e out).Returns
  | ⟨n, u, .file c⟩, hu, path, out => by
    show Outcome.Returns (if (fileName (components (join path n))).bind extension = some "pkt".toList then
        if u then (runOne env (join path n) c).bind fun s => .ok (out ++ [s]) else .err .invalidPath
      else .ok out)
    split_ifs
    · exact Outcome.returns_bind (h1 _ _) fun a => .inl ⟨_, rfl⟩
    · exact .inr ⟨_, rfl⟩
    · exact .inl ⟨_, rfl⟩
  | ⟨n, u, .dir es b⟩, hu, path, out => by
    show Outcome.Returns (if u then visitFiles env (join path n) (.dir es b) out else .panic)
    rw [if_pos hu.1]
    exact visitFiles_returns h1 (.dir es b) hu.2 (join path n) out
end

theorem saveAll_returns {disk : Disk} {dir out : Str} (ss : List Schema) :
    ∀ k st, (saveAll disk dir out .typeScript k ss st).1.Returns := by
  induction ss with
  | nil => exact fun k st => .inl ⟨(), rfl⟩
  | cons s ss ih =>
    intro k st
    unfold saveAll
    cases hq : formatPath s.path dir out .typeScript true with
    | diverge => unfold formatPath formatPathText at hq; rw [if_pos rfl] at hq; split at hq <;> cases hq
    | panic => unfold formatPath formatPathText at hq; rw [if_pos rfl] at hq; split at hq <;> cases hq
    | err e => exact .inr ⟨e, rfl⟩
    | ok q =>
      simp only
      unfold saveOne
      cases disk.mkdir k with
      | false => exact .inr ⟨_, rfl⟩
      | true =>
        cases disk.write k with
        | none => exact ih _ _
        | some l => exact .inr ⟨_, rfl⟩

end Packetc.Cli
