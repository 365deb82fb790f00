{
 "C01": [
  "proved",
  "for every width k of the ID and w of usize with 0<k<=w"
 ],
 "C02": [
  "proved",
  ""
 ],
 "C03": [
  "proved",
  "every history, including calls that panic half-way"
 ],
 "C04": [
  "proved",
  "every history, including calls that panic half-way"
 ],
 "C05": [
  "partial",
  "false of the code: negation proved by a concrete history of calls that all return Ok; proved for every history without harmful calls (in-place re-insert, or remove_hooked whose hook panics before the last call); proved that harmful calls are exactly the calls that destroy consistency"
 ],
 "C06": [
  "partial",
  "false of the code: negation proved by a concrete history of calls that all return Ok (parent cycle, ancestors never ends); proved for every history without harmful calls"
 ],
 "C07": [
  "partial",
  "in-place requests excluded: the claim is false there (C08)"
 ],
 "C08": [
  "partial",
  "false of the code except FirstChildOf of an only child; the failure is proved for every other in-place request"
 ],
 "C09": [
  "partial",
  "false for LastChildOf of an only child (panics); everything else proved"
 ],
 "C10": [
  "proved",
  "any state, also inconsistent ones"
 ],
 "C11": [
  "partial",
  "forest unchanged is proved; the documented Err is never returned: the code panics, proved"
 ],
 "C12": [
  "proved",
  ""
 ],
 "C13": [
  "proved",
  ""
 ],
 "C14": [
  "proved",
  ""
 ],
 "C15": [
  "proved",
  ""
 ],
 "C16": [
  "proved",
  ""
 ],
 "C17": [
  "proved",
  ""
 ],
 "C18": [
  "proved",
  ""
 ],
 "C19": [
  "proved",
  "",
  [
   "Treena.subtree_exists_unique"
  ]
 ],
 "C20": [
  "proved",
  "for the sibling and shallow iterators the deque statement is part of C21/C25",
  [
   "Treena.C21_shallow",
   "Treena.C25_siblings"
  ]
 ],
 "C21": [
  "proved",
  ""
 ],
 "C22": [
  "proved",
  ""
 ],
 "C23": [
  "proved",
  "",
  [
   "Treena.C27_peek_allocating"
  ]
 ],
 "C24": [
  "proved",
  ""
 ],
 "C25": [
  "proved",
  ""
 ],
 "C26": [
  "proved",
  "any state, also inconsistent ones"
 ],
 "C27": [
  "proved",
  ""
 ],
 "C28": [
  "proved",
  ""
 ],
 "C29": [
  "proved",
  ""
 ],
 "C30": [
  "proved",
  ""
 ],
 "C31": [
  "proved",
  ""
 ],
 "C32": [
  "proved",
  ""
 ],
 "C33": [
  "partial",
  "false of the code for data whose text is empty, ends with a newline, has its first newline in its first piece, or is multi-line in a last child below the first level (negations by concrete outputs: C33_false); proved for all other trees, every chunking and every (also failing) sink; never panics: proved without exception"
 ],
 "C34": [
  "proved",
  "any history state"
 ],
 "C35": [
  "proved",
  "any state"
 ],
 "C36": [
  "proved",
  ""
 ],
 "C37": [
  "proved",
  ""
 ],
 "C38": [
  "partial",
  "false for insert/try_adopt/adopt with LastChildOf of an only child (proved to panic); everything else proved; accessors and all iterators proved without exception"
 ],
 "C39": [
  "partial",
  "false for two kinds of in-place requests (witness proved); C84_insert_then_detach_exact shows that it holds for exactly all other inserts that return Ok"
 ],
 "C40": [
  "proved",
  ""
 ],
 "C41": [
  "proved",
  "every call of the API, every argument",
  [
   "Treena.C05_one_call",
   "Treena.C05_first_harm",
   "Treena.C08_insert_in_place_corrupts",
   "Treena.C40_remove_hooked_panic_corrupts"
  ]
 ],
 "C42": [
  "proved",
  "",
  [
   "Treena.C12_create_insert_failures"
  ]
 ],
 "C43": [
  "proved",
  ""
 ],
 "C44": [
  "proved",
  ""
 ],
 "C47": [
  "proved",
  ""
 ],
 "C48": [
  "proved",
  ""
 ],
 "C45": [
  "proved",
  "requests for the place where the node already is are excluded in the statement (C08)"
 ],
 "C46": [
  "proved",
  "every hook, panicking or not"
 ],
 "C49": [
  "proved",
  "any raw state, returning or panicking"
 ],
 "C50": [
  "proved",
  "every state, consistent or not; panicking calls included"
 ],
 "C51": [
  "proved",
  "T::clone assumed not to panic here (derive(Clone) on vectors)"
 ],
 "C52": [
  "proved",
  "all histories, including those that corrupt the forest"
 ],
 "C53": [
  "proved",
  ""
 ],
 "C54": [
  "proved",
  ""
 ],
 "C57": [
  "proved",
  ""
 ],
 "C58": [
  "proved",
  ""
 ],
 "C55": [
  "proved",
  ""
 ],
 "C56": [
  "proved",
  ""
 ],
 "C59": [
  "proved",
  ""
 ],
 "C60": [
  "proved",
  ""
 ],
 "C61": [
  "proved",
  ""
 ],
 "C62": [
  "proved",
  ""
 ],
 "C63": [
  "proved",
  ""
 ],
 "C64": [
  "proved",
  ""
 ],
 "C65": [
  "proved",
  ""
 ],
 "C66": [
  "proved",
  ""
 ],
 "C67": [
  "proved",
  ""
 ],
 "C68": [
  "proved",
  ""
 ],
 "C69": [
  "proved",
  ""
 ],
 "C70": [
  "proved",
  ""
 ],
 "C71": [
  "proved",
  ""
 ],
 "C72": [
  "proved",
  ""
 ],
 "C73": [
  "proved",
  ""
 ],
 "C74": [
  "proved",
  ""
 ],
 "C75": [
  "proved",
  ""
 ],
 "C76": [
  "proved",
  ""
 ],
 "C77": [
  "proved",
  ""
 ],
 "C78": [
  "proved",
  ""
 ],
 "C79": [
  "proved",
  ""
 ],
 "C80": [
  "proved",
  ""
 ],
 "C81": [
  "proved",
  ""
 ],
 "C82": [
  "proved",
  ""
 ],
 "C83": [
  "proved",
  ""
 ],
 "C84": [
  "proved",
  ""
 ],
 "C85": [
  "proved",
  ""
 ],
 "C86": [
  "proved",
  ""
 ],
 "C87": [
  "proved",
  ""
 ],
 "C88": [
  "proved",
  "The provided methods are modelled from std's documented default implementations (Model/StdIter.lean); size_hint-driven reservation in collect is not modelled."
 ],
 "C89": [
  "proved",
  "Hanging is exhausted fuel in the model; the fuel lemmas (Proof/Fuel*.lean) show that this means an endless loop. Copying never hangs in any reachable forest (C89_copy, Props/CopyAny.lean)."
 ],
 "C90": [
  "proved",
  "The theorems named C90_effects_* are for a T::clone with effects; they refer to the sequence of calls of C67 (replay)."
 ],
 "C91": [
  "proved",
  "The damaged trees are defined by taint in Spec/Local.lean and Spec/LocalRelease.lean; the naive trees are those of C65/C78."
 ],
 "C92": [
  "proved",
  "A semantic form of constant time: which nodes are looked at, not the number of machine steps. The removals and copies are not covered (their steps are counted in C79). detach_single is for forests that a history of calls without a damaging one reaches (Models); the others for every forest."
 ]
}