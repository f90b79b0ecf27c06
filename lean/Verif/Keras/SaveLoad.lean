import Verif.Keras.SeqEmbed
import Verif.Cli.Model
import Verif.PyDict
import Verif.Text

/-!
Model of the files of the embedding models with Keras: constructor, `get_config`, `save`, `load` of `SeqEmbed`, `SeqEmbedLDE`,
`SeqQEmbed` and `SeqMetaEmbed` (/repo/hyperion/keras/embed/), with `HypModel.to_json`, `load_config`
(/repo/hyperion/hyp_model.py:91-175), `KerasModelLoader.load` (/repo/hyperion/keras/keras_model_loader.py:18-37) and of
the properties `in_length`, `pool_in_length`, `enc_downsampling`.

* A Keras network is an element of an arbitrary type `N`; writing it with `Model.save` and reading it with `load_model` gives it back.
* A JSON file holds a dictionary; the values (numbers, strings, `None`) survive JSON.
* Left out: compiled models (`model`, `pool_net`), which no file holds, and crashes while writing (C165).
-/

namespace Hyp.Keras.SaveLoad
open Hyp.Text Hyp Hyp.Cli

variable {N : Type}

/-- content of a file -/
inductive Content (N : Type)
  | json (cfg : List (String × Val))
  | net (n : N)

/-- the files by path -/
abbrev Disk (N : Type) := Str → Option (Content N)

/-- writing a file -/
def put (d : Disk N) (p : Str) (c : Content N) : Disk N := fun q => if q = p then some c else d q

/-- the classes of keras/embed -/
inductive Cls
  | seqEmbed
  | seqEmbedLDE
  | seqQEmbed
  | seqMetaEmbed
deriving DecidableEq

/-- an object: attributes, first network (`enc_net`, `prepool_net`, `embed_net1`), second network (`pt_net`, `score_net`), `lde_net`;
the argument `enc_downsampling` and the length given to `build` -/
structure Obj (N : Type) where
  cls : Cls
  attrs : List (String × Val)
  a : N
  b : Option N
  l : Option N
  down : Option Nat
  maxLen : Option Nat

/-- arguments of the constructors with their defaults; seq_embed.py:29-37, seq_embed_lde.py:30-41, seq_q_embed.py:27-39,
seq_meta_embed.py:27-33; `name` is an argument of `HypModel`, hyp_model.py:23. `num_classes` has no default. -/
def params : Cls → List (String × Val)
  | .seqEmbed => [("loss", .str "categorical_crossentropy"), ("pooling", .str "mean+std"), ("left_context", .int 0),
      ("right_context", .int 0), ("begin_context", .null), ("end_context", .null), ("name", .null)]
  | .seqEmbedLDE => [("loss", .str "categorical_crossentropy"), ("pooling", .str "mean+std"), ("num_comp", .int 64), ("lde_order", .int 2),
      ("left_context", .int 0), ("right_context", .int 0), ("begin_context", .null), ("end_context", .null), ("name", .null)]
  | .seqQEmbed => [("num_classes", .null), ("post_pdf", .str "diag_normal"), ("pooling_input", .str "mean+logvar"),
      ("pooling_output", .str "nat+prec"), ("left_context", .int 0), ("right_context", .int 0), ("begin_context", .null),
      ("end_context", .null), ("frame_corr_penalty", .int 1), ("min_var", .dec 1 1), ("kl_weight", .int 0), ("name", .null)]
  | .seqMetaEmbed => [("num_classes", .null), ("post_pdf", .str "diag_normal"), ("pooling_input", .str "mean+logvar"),
      ("pooling_output", .str "nat+prec"), ("min_var", .dec 1 1), ("name", .null)]

/-- value of an argument: given or the default -/
def argOf (kw : List (String × Val)) (p : String × Val) : String × Val := (p.1, (dictGet kw p.1).getD p.2)

/-- `self.begin_context = left_context if begin_context is None else begin_context` and the same for the end,
seq_embed.py:51-52, seq_embed_lde.py:57-58, seq_q_embed.py:58-59 -/
def resolve (args : List (String × Val)) (p : String × Val) : String × Val :=
  if p.1 = "begin_context" ∧ p.2 = .null then (p.1, (dictGet args "left_context").getD .null)
  else if p.1 = "end_context" ∧ p.2 = .null then (p.1, (dictGet args "right_context").getD .null)
  else p

/-- the constructors, seq_embed.py:29-54, seq_embed_lde.py:30-60, seq_q_embed.py:27-61, seq_meta_embed.py:27-47; other keyword arguments
are swallowed by `HypModel.__init__` -/
def mk (c : Cls) (a : N) (b l : Option N) (kw : List (String × Val)) (down : Option Nat) : Obj N :=
  let args := (params c).map (argOf kw)
  { cls := c, attrs := args.map (resolve args), a := a, b := b, l := l, down := down, maxLen := none }

/-- value of an attribute -/
def Obj.attr (o : Obj N) (k : String) : Val := (dictGet o.attrs k).getD .null

/-- `self.__class__.__name__` -/
def className : Cls → String
  | .seqEmbed => "SeqEmbed"
  | .seqEmbedLDE => "SeqEmbedLDE"
  | .seqQEmbed => "SeqQEmbed"
  | .seqMetaEmbed => "SeqMetaEmbed"

/-- the keys of `config` in `get_config`, seq_embed.py:300-305, seq_embed_lde.py:315-322, seq_q_embed.py:279-289, seq_meta_embed.py:148-152 -/
def configKeys : Cls → List String
  | .seqEmbed => ["pooling", "loss", "left_context", "right_context", "begin_context", "end_context"]
  | .seqEmbedLDE => ["pooling", "loss", "num_comp", "left_context", "right_context", "begin_context", "end_context"]
  | .seqQEmbed => ["num_classes", "post_pdf", "pooling_input", "pooling_output", "min_var", "kl_weight", "frame_corr_penalty",
      "left_context", "right_context", "begin_context", "end_context"]
  | .seqMetaEmbed => ["num_classes", "post_pdf", "pooling_input", "pooling_output", "min_var"]

/-- `get_config`: the base configuration (hyp_model.py:143-147) and then the one of the class -/
def getConfig (o : Obj N) : List (String × Val) :=
  [("class_name", .str (className o.cls)), ("name", o.attr "name")] ++ (configKeys o.cls).map (fun k => (k, o.attr k))

/-- suffixes of the files of the two networks, seq_embed.py:316-319, seq_embed_lde.py:332-335, seq_q_embed.py:301-304,
seq_meta_embed.py:163-169 -/
def suffixes : Cls → Str × Str
  | .seqEmbed => (".enc.h5".toList, ".pt.h5".toList)
  | .seqEmbedLDE => (".enc.h5".toList, ".pt.h5".toList)
  | .seqQEmbed => (".net1.h5".toList, ".score.h5".toList)
  | .seqMetaEmbed => (".net1.h5".toList, ".score.h5".toList)

/-- last file of `save`, seq_embed_lde.py:337-339 -/
def saveLde (d : Disk N) (p : Str) (o : Obj N) : Disk N × Bool :=
  if o.cls = .seqEmbedLDE ∧ o.attr "pooling" = .str "lde" then
    match o.l with
    | none => (d, false)
    | some n => (put d (p ++ ".lde.h5".toList) (.net n), true)
  else (d, true)

/-- `save(file_path)`, seq_embed.py:311-319, seq_embed_lde.py:327-339, seq_q_embed.py:296-304, seq_meta_embed.py:158-169: the files
afterwards, and whether it returned (`None.save` raises) -/
def save (d : Disk N) (p : Str) (o : Obj N) : Disk N × Bool :=
  let d1 := put d (p ++ ".json".toList) (.json (getConfig o))
  let d2 := put d1 (p ++ (suffixes o.cls).1) (.net o.a)
  match o.b with
  | none => (d2, false)
  | some n => saveLde (put d2 (p ++ (suffixes o.cls).2) (.net n)) p o

/-- `load_config` of a JSON file: `none` = raises -/
def readCfg (d : Disk N) (q : Str) : Option (List (String × Val)) :=
  match d q with
  | some (.json c) => some c
  | _ => none

/-- `load_model` -/
def readNet (d : Disk N) (q : Str) : Option N :=
  match d q with
  | some (.net n) => some n
  | _ => none

/-- `filter_args` in `load`, seq_embed.py:333-335, seq_embed_lde.py:358-360, seq_q_embed.py:319-322, seq_meta_embed.py:186 -/
def loadKeys : Cls → List String
  | .seqEmbed => ["loss", "pooling", "left_context", "right_context", "begin_context", "end_context", "name"]
  | .seqEmbedLDE => ["loss", "pooling", "num_comp", "lde_order", "left_context", "right_context", "begin_context", "end_context", "name"]
  | .seqQEmbed => ["post_pdf", "pooling_input", "pooling_output", "left_context", "right_context", "begin_context", "end_context",
      "min_var", "kl_weight", "frame_corr_penalty", "name"]
  | .seqMetaEmbed => ["post_pdf", "pooling_input", "pooling_output", "min_var", "name"]

/-- `{k: config[k] for k in filter_args if k in config}` -/
def kwOf (cfg : List (String × Val)) (keys : List String) : List (String × Val) :=
  keys.filterMap (fun k => (dictGet cfg k).map (fun v => (k, v)))

/-- `config['num_classes']`, the second positional argument of the last two classes: `none` = `KeyError` -/
def positional (c : Cls) (cfg : List (String × Val)) : Option (List (String × Val)) :=
  match c with
  | .seqEmbed => some []
  | .seqEmbedLDE => some []
  | .seqQEmbed => (dictGet cfg "num_classes").map (fun v => [("num_classes", v)])
  | .seqMetaEmbed => (dictGet cfg "num_classes").map (fun v => [("num_classes", v)])

/-- the file of the dictionary encoding, if it exists, seq_embed_lde.py:352-355: outer `none` = raises -/
def loadLde (c : Cls) (d : Disk N) (p : Str) : Option (Option N) :=
  if c = .seqEmbedLDE then
    if (d (p ++ ".lde.h5".toList)).isSome then (readNet d (p ++ ".lde.h5".toList)).map some else some none
  else some none

/-- `cls.load(file_path)`, seq_embed.py:323-337, seq_embed_lde.py:342-362, seq_q_embed.py:308-324, seq_meta_embed.py:175-188. The class
in the file is not looked at. -/
def load (c : Cls) (d : Disk N) (p : Str) : Option (Obj N) := do
  let cfg ← readCfg d (p ++ ".json".toList)
  let a ← readNet d (p ++ (suffixes c).1)
  let b ← readNet d (p ++ (suffixes c).2)
  let l ← loadLde c d p
  let pos ← positional c cfg
  some (mk c a (some b) l (pos ++ kwOf cfg (loadKeys c)) none)

/-- `get_object()[class_name]`, keras_model_loader.py:18-28: `SeqMetaEmbed` is not in the dictionary; for the classes that are modelled here -/
def classOf (v : Val) : Option Cls :=
  if v = .str "SeqEmbed" then some .seqEmbed
  else if v = .str "SeqEmbedLDE" then some .seqEmbedLDE
  else if v = .str "SeqQEmbed" then some .seqQEmbed
  else none

/-- `KerasModelLoader.load(model_path)`, keras_model_loader.py:32-37 -/
def kmlLoad (d : Disk N) (p : Str) : Option (Obj N) := do
  let cfg ← readCfg d (p ++ ".json".toList)
  let v ← dictGet cfg "class_name"
  let c ← classOf v
  load c d p

/-- `build(max_seq_length)` as far as lengths are concerned: it is stored (`None` is replaced by the length of the network's input),
seq_embed.py:162-166, seq_embed_lde.py:177-181, seq_q_embed.py:122-126; `inLen` is the input length of a network, `None` if it is variable -/
def Obj.build (inLen : N → Option Nat) (o : Obj N) (len : Option Nat) : Obj N :=
  { o with maxLen := if len = none then inLen o.a else len }

/-- `in_length`, seq_embed.py:80-83 -/
def Obj.inLength (inLen : N → Option Nat) (o : Obj N) : Option Nat :=
  if o.maxLen = none then inLen o.a else o.maxLen

/-- `enc_downsampling`, seq_embed.py:101-109 (`prepool_downsampling` in seq_q_embed.py); `outLen a n` is the output length of the network for an
input of `n` frames; a quotient that is not an integer raises. It is computed once and kept in the object: the model computes it anew. -/
def Obj.downsampling (inLen : N → Option Nat) (outLen : N → Nat → Nat) (o : Obj N) : Option Nat :=
  match o.down with
  | some r => some r
  | none =>
    match o.inLength inLen with
    | none => none
    | some n => if 0 < outLen o.a n ∧ n % outLen o.a n = 0 then some (n / outLen o.a n) else none

/-- a context as a number of frames -/
def natVal : Val → Option Nat
  | .int z => if 0 ≤ z then some z.toNat else none
  | _ => none

/-- the lengths that `predict_embed` works with, seq_embed.py:203-216 -/
def Obj.embCfg (inLen : N → Option Nat) (outLen : N → Nat → Nat) (o : Obj N) : Option EmbCfg := do
  let n ← o.inLength inLen
  let r ← o.downsampling inLen outLen
  let left ← natVal (o.attr "left_context")
  let right ← natVal (o.attr "right_context")
  let beginC ← natVal (o.attr "begin_context")
  let endC ← natVal (o.attr "end_context")
  some { N := n, P := outLen o.a n, r := r, left := left, right := right, beginC := beginC, endC := endC }

end Hyp.Keras.SaveLoad
