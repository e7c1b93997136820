#!/usr/bin/env python3
"""Generates lean/Verif/FO/Witness.lean: the states of the construction for the witness text, in steps of few letters.
The states are printed by evaluating the model; the generated theorems check each step."""
import subprocess, sys
W = [2, 3, 11, 16, 30, 48, 42, 41, 6, 49, 31, 58, 60, 27, 50, 53, 63, 55, 43, 52, 9, 26, 56, 44, 34, 45, 10, 17, 13, 20, 54, 28, 61, 24, 7, 47, 62, 36,
     23, 39, 19, 4, 15, 59, 33, 14, 5, 25, 32, 40, 29, 8, 51, 1, 12, 38, 46, 21, 18, 57, 35, 8, 20, 22, 37, 65, 46, 131, 28, 41, 192]
STEP = int(sys.argv[1]) if len(sys.argv) > 1 else 2
cuts = list(range(0, len(W) - 1, STEP)) + [len(W) - 1]
text = '[' + ', '.join(map(str, W)) + ']'
src = 'import Verif.FO.Diverge\nopen Verif.FO\ndef witness : List Verif.PM.Byte := ' + text + '\n' + '''
def sh (s : Builder) (l : List Nat) : String := s!"{s.base}@{s.next}@{s.front}@{s.usedState}@{s.usedTrans}@{s.prev}@{l}"
def s0 : Res Builder := do
  let s ← expandLoop witness.length witness.length (initial witness)
  lift (s.setNext 0 0)
def st (n : Nat) : Res (Builder × List Nat) := do
  let s ← s0
  letterLoop (findBase' 300) n 0 (List.replicate (witness.length + 1) 0) s
''' + ''.join(f'#eval match st {c} with | .ok (s, l) => IO.println (sh s l) | _ => IO.println "bad"\n' for c in cuts)
open('/tmp/fowit.lean', 'w').write(src)
out = subprocess.run(['lake', 'env', 'lean', '/tmp/fowit.lean'], cwd='/verif/lean', capture_output=True, text=True).stdout.strip().split('\n')
assert len(out) == len(cuts), out[:3]
L = ['/-', 'Generated by tools/fowit.py.', '', 'A text of %d letters for which the construction of the factor oracle does not end, with the states of the builder on the way.' % len(W), '-/',
     'import Verif.FO.Diverge', '', 'namespace Verif.FO', '', 'open PM (Byte)', '',
     '/-- The text. With its last letter the list of free elements is empty when a base is searched. -/',
     'def witness : List Byte :=', '  [' + ', '.join(map(str, W[:40])) + ',', '   ' + ', '.join(map(str, W[40:])) + ']', '',
     'deriving instance DecidableEq for Builder', '']
for j, (c, o) in enumerate(zip(cuts, out)):
    b, n, f, us, ut, pv, l = o.split('@')
    L += [f'/-- The state after {c} letters. -/', f'def wst{j} : Builder :=', f'  ⟨witness, {b},', f'   {n}, {f},', f'   {us},', f'   {ut},', f'   {pv}⟩', '',
          f'def wlr{j} : List Nat := {l}', '']
HEAD = lambda imp, what: ['/-', 'Generated by tools/fowit.py.', '', what, '-/', 'import Verif.FO.' + imp, '', 'namespace Verif.FO', '', 'open PM (Byte)', '',
                          'set_option maxRecDepth 1000000', '']
END = ['end Verif.FO']
def put(name, lines):
    open(f'/verif/lean/Verif/FO/{name}.lean', 'w').write('\n'.join(lines) + '\n')
put('Wit0', L + END)
# The steps with a conflict need much memory; they are in modules of their own that import each other, so that they are not built at once.
e = len(cuts) - 1
step = lambda j: [f"theorem wit_step{j} : letterLoop (findBase' 300) {cuts[j+1] - cuts[j]} {cuts[j]} wlr{j} wst{j} = .ok (wst{j+1}, wlr{j+1}) := by decide +kernel", '']
L = HEAD('Wit0', 'The construction for the witness: the first steps.')
L += ["theorem wit_init : ((expandLoop witness.length witness.length (initial witness)).bind (fun s => lift (s.setNext 0 0))) = .ok wst0 := by",
      '  decide +kernel', '']
for j in range(e - 2):
    L += step(j)
put('Wit1', L + END)
put('Wit2', HEAD('Wit1', 'The construction for the witness: a step with a conflict.') + step(e - 2) + END)
put('Wit3', HEAD('Wit2', 'The construction for the witness: a step with a conflict.') + step(e - 1) + END)
put('Wit4', HEAD('Wit3', 'The construction for the witness: the last letter.') +
    [f"theorem wit_last : letterLoop (findBase' 300) {len(W) - cuts[e]} {cuts[e]} wlr{e} wst{e} = .stop := by decide +kernel", ''] + END)
L = HEAD('Wit4', 'The construction for the witness does not end.')
L += [f"theorem wit_from{e} : letterLoop (findBase' 300) {len(W) - cuts[e]} {cuts[e]} wlr{e} wst{e} = .stop := wit_last", '']
for j in range(e - 1, -1, -1):
    a, c = cuts[j], cuts[j + 1]
    L += [f"theorem wit_from{j} : letterLoop (findBase' 300) {len(W) - a} {a} wlr{j} wst{j} = .stop :=",
          f"  letterLoop_comp wit_step{j} wit_from{j+1} (by decide) (by decide)", '']
L += ["theorem witness_stuck : buildWith (findBase' 300) witness = .stop := by",
      "  unfold buildWith",
      "  have h := wit_init",
      "  cases h1 : expandLoop witness.length witness.length (initial witness) with",
      "  | ub => rw [h1] at h; cases h",
      "  | stop => rw [h1] at h; cases h",
      "  | ok s =>",
      "    rw [h1] at h",
      "    have h2 : lift (s.setNext 0 0) = .ok wst0 := h",
      "    have e1 : witness.length = 71 := by decide +kernel",
      "    have e2 : List.replicate (71 + 1) 0 = wlr0 := by decide +kernel",
      "    rw [ok_bind, h2, ok_bind, e1, e2, wit_from0, stop_bind]", '', 'end Verif.FO']
put('Witness', L)
