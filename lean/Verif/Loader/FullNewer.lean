import Verif.Loader.FullTable
/-!
# Documents of one version and the parser of the next one: specification and check (C154)

`Old` says which documents are meant, `Keeps` how the surroundings of the two parsers may differ.  `simTab` is a check of two tables against a relation between their loaders; `newer1112` is such a
relation for `cwl_v1_1.py` and `cwl_v1_2.py`.
-/
namespace CwlUtils.Loader.Full

/-- The words that loaders put into documents: the names of fields that are loaded in a scope of their own, of the fields that maps are turned into, and those of written out types and
secondary files. -/
def loaderWords : List String := ["", "run", "array", "null", "type", "items", "pattern", "required", "id", "name", "class", "package", "specs", "envName", "envValue", "source", "loopSource", "None"]

/-- All texts and keys of the document are ones of the older version, and no mapping in it states a version. -/
inductive Old (P : String → Prop) : Val → Prop
  | null : Old P .null
  | bool (b) : Old P (.bool b)
  | int (n) : Old P (.int n)
  | flt (t) : Old P (.flt t)
  | bytes (b) : Old P (.bytes b)
  | str {s} : P s → Old P (.str s)
  | arr {l} : (∀ y ∈ l, Old P y) → Old P (.arr l)
  | obj {m} : (∀ k y, (k, y) ∈ m → P k ∧ k ≠ "cwlVersion") → (∀ k y, (k, y) ∈ m → Old P y) → Old P (.obj m)

/-- The surroundings of the older parser and of the newer one treat the texts of the older version alike: they resolve them to the same addresses, which are texts of the older version again, they find
the same documents, and the names of the older version are names of the newer one. -/
structure Keeps (P : String → Prop) (w w' : World) : Prop where
  expand : ∀ b s v r t, P b → P t → w'.expand b s v r t = w.expand b s v r t
  expanded : ∀ b s v r t u, P b → P t → w.expand b s v r t = .ok u → P u
  exists_ : ∀ t, P t → w'.exists_ t = w.exists_ t
  include_ : ∀ u, w'.include_ u = w.include_ u
  included : ∀ u t, w.include_ u = .ok t → P t
  vocab : ∀ t u, w.vocab t = some u → w'.vocab t = some u
  commented : w'.commented = w.commented
  words : ∀ t ∈ loaderWords, P t
  cut : ∀ s t : List Char, P (String.ofList (s ++ t)) → P (String.ofList s)

/-! ## The check -/

/-- A relation between the loaders of two tables: for each loader of the first one those of the second one. -/
abbrev Rels := List (List Nat)

def Rels.has (R : Rels) (i j : Nat) : Bool := (R.getD i []).contains j

/-- A loader that gives what it is given, if anything. -/
def plainOne : Ldr → Bool
  | .prim _ => true
  | .enum _ => true
  | .expression => true
  | _ => false

def plainLdr (T : Tab) (i : Nat) : Bool := match T.ldrs[i]? with
  | some (.union alts) => alts.all (fun a => match T.ldrs[a]? with
    | some l => plainOne l
    | none => false)
  | some l => plainOne l
  | none => false

/-- A loader that resolves a text and does nothing else. -/
def uriPlain (T : Tab) (i : Nat) : Bool := match T.ldrs[i]? with
  | some (.uri inner _ _ _ _) => plainLdr T inner
  | _ => false

/-- The loaders of a field are related. -/
def relField (R : Rels) (c d : Class) (f : String) : Bool := match Dict.get? c.loaders f, Dict.get? d.loaders f with
  | some i, some j => R.has i j
  | _, _ => false

/-- The loaders of a field are related, and resolve a text. -/
def relText (A B : Tab) (R : Rels) (c d : Class) (f : String) : Bool := match Dict.get? c.loaders f, Dict.get? d.loaders f with
  | some i, some j => R.has i j && uriPlain A i && uriPlain B j
  | _, _ => false

/-- A class of the newer table has all fields of one of the older table, and requires no others. -/
def simClass (A B : Tab) (R : Rels) (c d : Class) : Bool :=
  c.cls.name == d.cls.name && c.cls.classed == d.cls.classed && c.cls.ident == d.cls.ident && c.cls.attrs.all (fun f => d.cls.attrs.contains f) &&
  (match c.cls.ident with
    | none => true
    | some (f, _) => f != "cwlVersion" && relText A B R c d f) &&
  (!c.cls.classed || relText A B R c d "class") &&
  d.cls.fields.all (fun p =>
    if p.1 == "cwlVersion" then !p.2
    else if c.cls.fields.any (fun q => q.1 == p.1) then (!p.2 || c.cls.fields.contains (p.1, true)) && (c.sub.contains p.1 == d.sub.contains p.1) && relField R c d p.1
    else !p.2 && !c.cls.attrs.contains p.1 && p.1 != "" && !p.1.toList.contains ':') &&
  c.sub.all (fun f => loaderWords.contains f)

/-- One loader and another one, where neither is one of alternatives or a proxy. -/
def simLdr (A B : Tab) (R : Rels) : Ldr → Ldr → Bool
  | .any, .any => true
  | .prim p, .prim q => p == q
  | .enum l, .enum l' => l.all (fun s => l'.contains s)
  | .expression, .expression => true
  | .record c, .record d => match A.classes[c]?, B.classes[d]? with
    | some c, some d => simClass A B R c d
    | _, _ => false
  | .array i, .array j => R.has i j
  | .map i f, .map j g => f == g && R.has i j
  | .uri i s v r l, .uri j s' v' r' l' => s == s' && v == v' && r == r' && l == l' && R.has i j
  | .typeDsl i r, .typeDsl j r' => r == r' && R.has i j
  | .idMap i s p, .idMap j s' p' => s == s' && p == p' && s != "cwlVersion" && p != "cwlVersion" && loaderWords.contains s && loaderWords.contains p && R.has i j
  | .secondary i, .secondary j => R.has i j
  | _, _ => false

/-- What related loaders must be like. -/
def simPair (A B : Tab) (R : Rels) (i j : Nat) : Bool := match A.ldrs[i]?, B.ldrs[j]? with
  | some (.proxy k), some (.proxy l) => R.has k l
  | some (.proxy k), some _ => R.has k j
  | some (.union alts), some _ => alts.all (fun a => R.has a j)
  | some _, some (.union alts) => alts.any (fun b => R.has i b)
  | some a, some b => simLdr A B R a b
  | _, _ => false

def simTab (A B : Tab) (R : Rels) : Bool := R.zipIdx.all (fun p => p.1.all (fun j => simPair A B R p.2 j))

/-- The loaders of `cwl_v1_1.py` and those of `cwl_v1_2.py` that load what they load. -/
def newer1112 : Rels := [
  [0, 9, 10, 38, 90, 94, 119, 121, 123, 125, 131, 133, 155, 160, 163, 165, 171, 173, 180, 182, 190, 239, 246, 274], [1, 9, 10, 38, 104, 159, 215, 225], [2, 9, 10, 38],
  [3, 9, 10, 38, 113, 156, 218],
  [4, 10, 38, 90, 94, 104, 107, 109, 113, 114, 116, 118, 119, 121, 128, 136, 139, 143, 147, 156, 159, 160, 161, 162, 168, 175, 177, 192, 194, 204, 215, 226, 234, 244, 249],
  [5, 141], [6, 123, 125, 131, 133, 163, 165, 171, 173, 180, 182], [7, 9, 10, 38, 105, 204], [8, 9, 10, 38, 105, 204], [10, 38], [10], [9, 10, 11, 38], [9, 10, 12, 38],
  [13, 35, 141], [14, 35, 141], [15, 35, 141], [16, 35, 141], [17, 35, 141], [18, 35, 141], [19, 35, 141], [20, 35, 141], [21, 35, 141], [22, 35, 141], [23, 35, 141],
  [24, 35, 141], [25, 35, 141], [26, 35, 141], [27, 35, 141], [28, 35, 141], [29, 35, 141], [30, 35, 141], [31, 35, 141], [32, 35, 141], [34, 35, 141], [35], [36],
  [37, 38, 139], [38], [39], [], [41, 114], [42, 119, 121, 155, 156, 159, 160, 161, 190, 204, 206, 215, 218, 225], [43, 226], [44], [45, 123, 125], [46, 123, 125],
  [47, 123, 125], [48], [49, 131, 133], [50, 131, 133], [51, 131, 133], [52], [53, 116, 118], [54], [55, 162, 190], [56, 175], [57], [58, 153, 163, 165, 180],
  [59, 153, 163, 165, 180], [60, 153, 163, 165, 180], [61], [62, 171, 173, 182], [63, 171, 173, 182], [64, 171, 173, 182], [65], [66], [67, 180], [68, 182], [69, 182],
  [70, 246, 279, 281], [71], [72, 204], [73], [74], [75, 246, 279, 281], [76, 234], [78], [79], [80, 239], [81, 249], [82], [83, 246, 279, 281], [87, 246, 279, 281],
  [89, 90, 119, 147, 160, 274], [90], [91], [92], [93], [94], [95], [96], [97], [98], [99], [100], [101], [102], [103], [104], [105], [106, 107, 109, 204], [107, 109],
  [108, 109], [109], [110], [111], [112], [113], [114], [115, 116, 118], [116, 118], [117, 118], [118], [119], [120], [121], [122], [123], [124, 125], [125], [126],
  [127, 128], [128], [129], [130], [131], [132, 133], [133], [134], [135, 136], [136], [137], [138], [139], [140], [141], [142, 143], [143], [144], [], [], [149], [150],
  [147], [151], [152], [153], [154], [155], [156], [157], [158], [159, 215], [160], [161], [162], [163], [164, 165, 180], [165], [166], [167, 168], [168], [169], [170],
  [171], [172, 173, 182], [173], [174], [175], [176, 177], [177], [178], [179], [180], [181], [182], [183], [184], [185], [186], [187], [188], [189], [190], [191, 192],
  [192], [193, 194], [194], [195], [196], [197], [198], [199], [200], [201], [202], [203], [204], [205, 206], [206], [207], [208], [209], [210], [211], [212], [213],
  [214], [216], [217], [218], [219], [220], [221], [222], [223], [224], [225], [226], [227], [228], [229], [230], [231], [232], [233], [234], [236], [237], [238], [239],
  [240, 241], [241], [242], [243, 244], [244], [245], [246], [247], [248], [249], [250], [251], [252], [253], [254], [255, 256], [256], [257], [258], [259], [260],
  [261], [262], [263], [264], [265], [272], [273], [274], [279], [280, 281], [281]]

theorem simTab1112 : simTab tab11 tab12 newer1112 = true := by decide +kernel

end CwlUtils.Loader.Full
