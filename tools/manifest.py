"""Write MANIFEST.json from the theorem names in lean/Verif and the notes in tools/notes.json."""
import glob, json, os, re

root = os.path.dirname(os.path.dirname(os.path.abspath(__file__)))
thms = {}
for f in sorted(glob.glob(root + '/lean/Verif/**/*.lean', recursive=True)):
    stack = []
    for line in open(f):
        m = re.match(r'namespace (\S+)', line)
        if m:
            stack.append(m.group(1))
        m = re.match(r'end (\S+)\s*$', line)
        if m and stack and stack[-1] == m.group(1):
            stack.pop()
        m = re.match(r'(?:private )?theorem (C\d\d+)_(\S+)', line)
        if m:
            thms.setdefault(m.group(1), []).append('.'.join(stack + [m.group(1) + '_' + m.group(2)]))
notes = json.load(open(root + '/tools/notes.json'))
claims = []
for line in open(root + '/properties.jsonl'):
    p = json.loads(line)['id']
    t = thms.get(p, [])
    n = notes.get(p, '')
    if not t:
        status = 'partial'
        n = n or 'Not modelled yet.'
    elif any(x.endswith(('_partial', '_fails')) for x in t):
        status = 'partial'
    else:
        status = 'proved'
    claims.append(dict(property=p, status=status, theorems=t, note=n))
json.dump({'claims': claims}, open(root + '/MANIFEST.json', 'w'), indent=1)
for c in claims:
    print(c['property'], c['status'], len(c['theorems']))
