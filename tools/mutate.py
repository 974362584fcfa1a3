"""Apply seeded bugs to a scratch copy of the Lean project and report the property theorems that no longer hold.

usage: mutate.py mutations.json
Each mutation: {"file": "Verif/Split/Model.lean", "def": name, "edit": words, "claim": "Cnn: ...", "old": text, "new": text}
One line per mutation is appended to seeded/LOG.jsonl.
"""
import glob, json, os, re, shutil, subprocess, sys

root = os.path.dirname(os.path.dirname(os.path.abspath(__file__)))
scratch = '/tmp/seeded/lean'
os.makedirs('/tmp/seeded', exist_ok=True)
subprocess.run(['rsync', '-a', '--delete', root + '/lean/', scratch + '/'], check=False) if shutil.which('rsync') else (
    shutil.rmtree(scratch, ignore_errors=True), shutil.copytree(root + '/lean', scratch, symlinks=True))

# Lean stops after 100 errors, before the axioms are printed, which would look like the failure of all the theorems (scratch copy only)
open(scratch + '/lakefile.toml', 'a').write('weakLeanArgs = ["-DmaxErrors=100000"]\n')

# without edits everything has to build, otherwise a theorem that does not hold anyway would be reported as failed
base = subprocess.run(['lake', 'build'], cwd=scratch, capture_output=True, text=True)
if base.returncode != 0:
    sys.exit('the project does not build without edits:\n' + '\n'.join(l for l in base.stdout.splitlines() if l.startswith('error'))[:2000])

def theorems(text):
    return re.findall(r'^theorem (C\d\d+_\S+)', text, re.M)

def deps(mod, imports, seen):
    if mod in seen:
        return
    seen.add(mod)
    for m in imports.get(mod, []):
        deps(m, imports, seen)

def statement_end(block):
    """The position of the := or of the first alternative that ends the statement of a theorem, and its text."""
    depth, i = 0, 0
    while i < len(block):
        c = block[i]
        if c in '([{⟨':
            depth += 1
        elif c in ')]}⟩':
            depth -= 1
        elif depth == 0 and block.startswith(':=', i) and not re.search(r'\b(let|have)\b[^\n]*$', block[:i].rsplit('\n', 1)[-1]):
            return i
        elif depth == 0 and block.startswith('\n  | ', i):
            return i
        i += 1
    return None

def leave_out(text, lines):
    """Replace by sorry the proofs of the theorems in which there is an error, and remove such examples."""
    rows = text.split('\n')
    starts = [i for i, r in enumerate(rows) if re.match(r'(@\[[^\]]*\] )?((private|protected|noncomputable) )*(theorem|lemma|example|def|instance|structure|/--|/-!|end\b|#print|namespace|variable|open|set_option|inductive|abbrev|omit|section|attribute|local|mutual|macro|notation)', r)]
    names, cut = [], []
    for n in lines:
        i = max([k for k in starts if k <= n - 1], default=None)
        if i is None or not re.search(r'^(@\[[^\]]*\] )?((private|protected) )*(theorem|lemma|example)\b', rows[i]):
            continue
        j = min([k for k in starts if k > i], default=len(rows))
        block = '\n'.join(rows[i:j])
        if ':= by sorry' in block or (i, j) in cut:
            continue
        cut.append((i, j))
        names.append(rows[i].split()[1] if 'example' not in rows[i][:8] else 'example')
        if re.match(r'example', rows[i]):
            block = 'example : True := trivial'
        else:
            k = statement_end(block)
            if k is None:
                names.pop()
                continue
            block = block[:k] + ' := by sorry\n'
        rows[i:j] = (block.split('\n') + [''] * (j - i))[:j - i]
    return '\n'.join(rows), names

mods = {}
imports = {}
for f in glob.glob(scratch + '/Verif/**/*.lean', recursive=True):
    name = os.path.relpath(f, scratch)[:-5].replace('/', '.')
    text = open(f).read()
    mods[name] = (f, text)
    imports[name] = [m for m in re.findall(r'^import (\S+)', text, re.M) if m.startswith('Verif')]

for mut in json.load(open(sys.argv[1])):
    target = mut['file'][:-5].replace('/', '.')
    f, text = mods[target]
    if text.count(mut['old']) != 1:
        print('NOT APPLIED', text.count(mut['old']), mut['def'], mut['edit'])
        continue
    affected = []
    for m in mods:
        seen = set()
        deps(m, imports, seen)
        if target in seen:
            affected.append(m)
    ok, failed, unknown = [], [], []
    try:
        for m in affected:
            g, t = mods[m]
            t2 = t.replace(mut['old'], mut['new']) if m == target else t
            names = theorems(t)
            ns = re.search(r'^namespace (\S+)', t, re.M)
            if names:
                t2 += '\n' + ''.join(f'#print axioms {ns.group(1)}.{n}\n' for n in names)
            open(g, 'w').write(t2)
        lemmas = []
        for _ in range(12):
            out = subprocess.run(['lake', 'build'] + affected, cwd=scratch, capture_output=True, text=True).stdout
            # a lemma that fails in a module that others import is left out, to see which theorems depend on it
            again = False
            for m in affected:
                if not any(m in imports[x] for x in affected):
                    continue
                rel = os.path.relpath(mods[m][0], scratch)
                lines = sorted({int(n) for n in re.findall(r'error: ' + re.escape(rel) + r':(\d+):', out)})
                text = open(mods[m][0]).read()
                new, names = leave_out(text, lines)
                if names:
                    open(mods[m][0], 'w').write(new)
                    lemmas += names
                    again = True
            if not again:
                break
        for m in affected:
            for n in theorems(mods[m][1]):
                full = re.search(r'^namespace (\S+)', mods[m][1], re.M).group(1) + '.' + n
                r = re.search(r"'" + re.escape(full) + r"' (does not depend on any axioms|depends on axioms: \[[^\]]*\])", out)
                if r is None:
                    # either the statement is not accepted, which is an error in the theorem itself, or Lean stopped before
                    current = open(mods[m][0]).read()
                    pos = current.find('theorem ' + n)
                    first = current[:pos].count('\n') + 1
                    end = re.search(r'\n\n', current[pos:])
                    last = first + current[pos:pos + end.start() if end else None].count('\n')
                    rel = os.path.relpath(mods[m][0], scratch)
                    lines = [int(x) for x in re.findall(r'error: ' + re.escape(rel) + r':(\d+):', out)]
                    (failed if any(first <= x <= last for x in lines) else unknown).append(n)
                else:
                    (failed if 'sorryAx' in r.group(1) else ok).append(n)
    finally:
        for m in affected:
            open(mods[m][0], 'w').write(mods[m][1])
    ids = tuple(i + '_' for i in re.findall(r'C\d+', mut['claim'].split(':')[0]))
    if unknown:
        print('UNRELIABLE', mut['def'], '|', mut['edit'], '| unknown:', unknown, '|', [l[:160] for l in out.splitlines() if l.startswith('error')][:3])
        sys.stdout.flush()
        continue
    status = 'caught' if any(n.startswith(ids) for n in failed) else 'MISSED'
    print(status, mut['def'], '|', mut['edit'], '| lemmas:', lemmas, '| failed:', failed, '| ok:', [n for n in ok if n.startswith(ids)])
    if status == 'MISSED':
        print('\n'.join(l for l in out.splitlines() if 'error' in l)[:600])
    rec = {'definition': mut['file'] + ': ' + mut['def'], 'edit': mut['edit'], 'claim_broken': mut['claim'],
           'theorems_failed': failed, 'lemmas_failed': lemmas, 'theorems_tightened': mut.get('tightened', [])}
    if len(sys.argv) > 2:
        # a second argument is the log of a rehearsal
        open(sys.argv[2], 'a').write(json.dumps(dict(rec, line=mut.get('line'), status=status)) + '\n')
    elif status == 'caught' or mut.get('force'):
        os.makedirs(root + '/seeded', exist_ok=True)
        open(root + '/seeded/LOG.jsonl', 'a').write(json.dumps(rec) + '\n')
    sys.stdout.flush()
