import Verif.Model.H52NP
import Verif.Model.NP2H5
/-!
Model of `H5Handler.sort` (ABXpy/h5tools/h5_handler.py lines 56-236), the external merge sort, and of
`sort_pairs` (ABXpy/task.py lines 1208-1251).

The key dataset is a list of integers, the companion datasets are lists of rows of an arbitrary
type `γ`.  `argsort` is numpy's: any function returning a sorting permutation (ties in any order).
Simplifications: temporary chunk datasets are lists; the backup directory is not represented (no
backup is made: line 61 is commented out); buffer sizes are given in rows (the conversion from
kilobytes is `bufRowsOf`).
-/
namespace ABX.ExtSort
open H52NP NP2H5

/-- numpy fancy indexing `data[order, :]` -/
def gather (data : List α) : List Nat → Except Err (List α)
  | [] => .ok []
  | i :: is => match data[i]? with
    | none => .error .indexError
    | some x => match gather data is with
      | .error e => .error e
      | .ok xs => .ok (x :: xs)

/-- `buf_rows` of line 93, for a buffer size given as the fraction `a / b` of ... bytes:
`int(round(buffer_size * 1000. / line_weight))`, exact arithmetic. -/
def bufRowsOf (bytes lineWeight : Nat) : Except Err Nat :=
  if lineWeight = 0 then .error .zeroDivision else .ok (roundDiv bytes lineWeight)

/-- lines 95-108: the intervals of rows extracted as chunks -/
def chunkLoop (fuel bufRows n row : Nat) : Except Err (List (Nat × Nat)) :=
  if row + bufRows ≤ n then                                   -- line 101
    match fuel with
    | 0 => .error .diverge
    | fuel + 1 => match chunkLoop fuel bufRows n (row + bufRows) with
      | .error e => .error e
      | .ok cs => .ok ((row, row + bufRows) :: cs)            -- lines 102-104
  else if row < n then .ok [(row, n)]                          -- lines 106-108
  else .ok []

/-- `extract_chunk` for one dataset, lines 227-236 -/
def extractOne (order : List Nat) (ds : List α) (iv : Nat × Nat) : Except Err (List α) :=
  gather (npSlice ds iv.1 iv.2) order

/-- sequence a list of results (a python `for` loop appending to a list) -/
def sequence : List (Except Err α) → Except Err (List α)
  | [] => .ok []
  | .error e :: _ => .error e
  | .ok x :: xs => match sequence xs with
    | .error e => .error e
    | .ok ys => .ok (x :: ys)

/-- the orders of the chunks, lines 223-224 -/
def chunkOrders (argsort : List Int → List Nat) (keys : List Int) (ivs : List (Nat × Nat)) : List (List Nat) :=
  ivs.map (fun iv => argsort (npSlice keys iv.1 iv.2))

/-- all the chunks of one dataset -/
def extractAll (orders : List (List Nat)) (ivs : List (Nat × Nat)) (ds : List α) : Except Err (List (List α)) :=
  sequence ((orders.zip ivs).map (fun p => extractOne p.1 ds p.2))

/-- input buffers of one dataset, lines 127-134 -/
def openAll (zero : α) (pol : Policy) (iBufRows : Nat) (chunks : List (List α)) : Except Err (List (RBuf α)) :=
  sequence (chunks.map (fun c => RBuf.create zero pol c 0 c.length iBufRows))

/-- minimum of a list of keys, python `min` (ValueError if empty) -/
def minOf : List Int → Except Err Int
  | [] => .error .valueError
  | x :: xs => .ok (xs.foldl min x)

/-- lines 165-169: read `amounts[c]` rows of each chunk (if positive) and concatenate -/
def readAmounts (pol : Policy) : List (RBuf α) → List Nat → Except Err (List (RBuf α) × List α)
  | [], _ => .ok ([], [])
  | bs, [] => .ok (bs, [])
  | b :: bs, a :: as =>
    if a > 0 then
      match b.read pol (some (a : Int)) with
      | .error e => .error e
      | .ok (b, d) => match readAmounts pol bs as with
        | .error e => .error e
        | .ok (bs, ds) => .ok (b :: bs, d ++ ds)
    else match readAmounts pol bs as with
      | .error e => .error e
      | .ok (bs, ds) => .ok (b :: bs, ds)

/-- lines 175-185 / 199-208 for the companion datasets: read, reorder by the order of the keys, write -/
def perComp (zero : γ) (order : List Nat) (rd : List (RBuf γ) → Except Err (List (RBuf γ) × List γ)) :
    List (List (RBuf γ)) → List (Buf γ) → Except Err (List (List (RBuf γ)) × List (Buf γ))
  | [], os => .ok ([], os)
  | rs, [] => .ok (rs, [])
  | r :: rs, o :: os =>
    match rd r with
    | .error e => .error e
    | .ok (r, data) => match gather data order with
      | .error e => .error e
      | .ok data => match o.write zero data with
        | .error e => .error e
        | .ok o => match perComp zero order rd rs os with
          | .error e => .error e
          | .ok (rs, os) => .ok (r :: rs, o :: os)

/-- state of the merge: readers and writers of the key and of the companions -/
structure MState (γ : Type) where
  kin : List (RBuf Int)
  cin : List (List (RBuf γ))
  kout : Buf Int
  cout : List (Buf γ)

/-- one iteration of the merge loop, lines 153-185 -/
def mergeStep (argsort : List Int → List Nat) (zero : γ) (pol : Policy) (s : MState γ) :
    Except Err (MState γ) :=
  match sequence ((s.kin.filter (fun b => !b.isEmpty)).map RBuf.currentTail) with   -- line 153-154
  | .error e => .error e
  | .ok tails => match minOf tails with
    | .error e => .error e
    | .ok minTail =>
      let amounts := s.kin.map (fun b => b.nbLowerThan (fun x y => x ≤ y) minTail)    -- lines 157-158
      match readAmounts pol s.kin amounts with                                       -- lines 162-168
      | .error e => .error e
      | .ok (kin, data) =>
        if amounts.all (· == 0) then .error .valueError                              -- line 169
        else
          let order := argsort data                                                   -- line 170
          match gather data order with
          | .error e => .error e
          | .ok sorted => match s.kout.write 0 sorted with                             -- line 171
            | .error e => .error e
            | .ok kout =>
              match perComp zero order (fun r => readAmounts pol r amounts) s.cin s.cout with -- 175-185
              | .error e => .error e
              | .ok (cin, cout) => .ok { kin, cin, kout, cout }

/-- the merge loop, lines 150-185 -/
def mergeLoop (argsort : List Int → List Nat) (zero : γ) (pol : Policy) (fuel : Nat) (s : MState γ) :
    Except Err (MState γ) :=
  if s.kin.all (fun b => b.dsIx == b.nRows) then .ok s             -- line 150 (`dataset_empty`)
  else match fuel with
    | 0 => .error .diverge
    | fuel + 1 => match mergeStep argsort zero pol s with
      | .error e => .error e
      | .ok s => mergeLoop argsort zero pol fuel s

/-- lines 188-193: read the rest of each buffer that is not empty -/
def readRest (pol : Policy) : List (RBuf α) → Except Err (List (RBuf α) × List α)
  | [] => .ok ([], [])
  | b :: bs =>
    if b.bufIx = b.bufLen then match readRest pol bs with          -- `buffer_empty`
      | .error e => .error e
      | .ok (bs, ds) => .ok (b :: bs, ds)
    else match b.read pol none with
      | .error e => .error e
      | .ok (b, d) => match readRest pol bs with
        | .error e => .error e
        | .ok (bs, ds) => .ok (b :: bs, d ++ ds)

/-- the final part of the merge, lines 187-208 -/
def mergeEnd (argsort : List Int → List Nat) (zero : γ) (pol : Policy) (s : MState γ) : Except Err (MState γ) :=
  match readRest pol s.kin with
  | .error e => .error e
  | .ok (kin, data) =>
    if s.kin.all (fun b => b.bufIx == b.bufLen) then .ok s          -- line 194: no data at all
    else
      let order := argsort data                                    -- line 196
      match gather data order with
      | .error e => .error e
      | .ok sorted => match s.kout.write 0 sorted with
        | .error e => .error e
        | .ok kout => match perComp zero order (readRest pol) s.cin s.cout with
          | .error e => .error e
          | .ok (cin, cout) => .ok { kin, cin, kout, cout }

/-- `H5Handler.sort`, lines 56-218.  `keys` and `comps` are the datasets of the file, the result is
their new content. -/
def sort (argsort : List Int → List Nat) (zero : γ) (pol : Policy) (bufRows oBufRows : Nat) (fuel : Nat)
    (keys : List Int) (comps : List (List γ)) : Except Err (List Int × List (List γ)) :=
  if comps.any (fun c => c.length != keys.length) then .error .ioError          -- lines 83-85
  else match chunkLoop fuel bufRows keys.length 0 with                           -- lines 95-108
  | .error e => .error e
  | .ok ivs =>
    let orders := chunkOrders argsort keys ivs
    match extractAll orders ivs keys, sequence (comps.map (extractAll orders ivs)) with
    | .error e, _ => .error e
    | _, .error e => .error e
    | .ok kchunks, .ok cchunks =>
      if ivs.length = 0 then .error .zeroDivision                                -- line 121
      else
        let iBufRows := roundDiv bufRows ivs.length
        if iBufRows = 0 then .error .assertion                                    -- line 125
        else match openAll 0 pol iBufRows kchunks, sequence (cchunks.map (openAll zero pol iBufRows)) with
          | .error e, _ => .error e
          | _, .error e => .error e
          | .ok kin, .ok cin =>
            if oBufRows = 0 then .error .assertion                                -- line 139
            else match Buf.create 0 "key" (some keys) keys.length oBufRows true true,
                sequence (comps.map (fun c => Buf.create zero "data" (some c) keys.length oBufRows true true)) with
              | .error e, _ => .error e
              | _, .error e => .error e
              | .ok kout, .ok cout =>                                             -- lines 141-145
                match mergeLoop argsort zero pol fuel { kin, cin, kout, cout } with
                | .error e => .error e
                | .ok s => match mergeEnd argsort zero pol s with
                  | .error e => .error e
                  | .ok s => match exitOk 0 [s.kout], exitOk zero s.cout with     -- end of line 113
                    | .error e, _ => .error e
                    | _, .error e => .error e
                    | .ok k, .ok c => .ok ((k.map Buf.data).flatten, c.map Buf.data)

/-- buffer size chosen by `sort_pairs` (task.py lines 1220-1251), in rows, for `n` pairs of
`itemSize` bytes and `memory` megabytes; exact arithmetic.  All quantities in bytes:
`amount = n*itemSize`, `0.75*memory = 750000*memory`. -/
def sortPairsBufRows (n itemSize memory : Nat) : Nat :=
  if n * itemSize ≤ 750000 * memory then roundDiv (n * itemSize) itemSize
  else if n * itemSize ≤ 30 * (750000 * memory) then roundDiv (n * itemSize) (30 * itemSize)
  else roundDiv (750000 * memory) itemSize

/-- output buffer of `sort_pairs`: default `o_buffer_size=1000` kilobytes, h5_handler.py lines 56, 137 -/
def sortPairsOBufRows (itemSize : Nat) : Nat := roundDiv 1000000 itemSize

/-- `H5Handler.sort` as called by `sort_pairs`, task.py lines 1250-1251 -/
def sortPairs (argsort : List Int → List Nat) (itemSize memory fuel : Nat) (keys : List Int) :
    Except Err (List Int × List (List Unit)) :=
  sort argsort () quarter (sortPairsBufRows keys.length itemSize memory) (sortPairsOBufRows itemSize) fuel keys []

end ABX.ExtSort
