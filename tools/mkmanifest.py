"""Writes MANIFEST.json: collects the theorems named Cxx_... under lean/Verif/Props."""
import glob, json, re, collections

th = collections.defaultdict(list)
for f in sorted(glob.glob('lean/Verif/Props/*.lean')):
    ns = []
    for line in open(f):
        m = re.match(r'namespace (\S+)', line)
        if m: ns.append(m.group(1))
        m = re.match(r'end (\S+)', line)
        if m and ns and ns[-1] == m.group(1): ns.pop()
        m = re.match(r'theorem (C(\d\d)_\S+)', line)
        if m: th['C' + m.group(2)].append('.'.join(ns + [m.group(1)]))

notes = json.load(open('tools/notes.json'))
claims = []
for line in open('properties.jsonl'):
    p = json.loads(line)
    i = p['id']
    n = notes.get(i, {})
    if i in th:
        status = n.get('status') or ('partial' if any(x.endswith('_partial') for x in th[i]) else 'proved')
        claims.append({'property': i, 'status': status, 'theorems': th[i], 'note': n.get('note', '')})
    elif n.get('status') == 'not_applicable':
        claims.append({'property': i, 'status': 'not_applicable', 'theorems': [], 'note': n['note']})
json.dump({'claims': claims}, open('MANIFEST.json', 'w'), indent=1)
print(len(claims), 'claims', sum(len(c['theorems']) for c in claims), 'theorems')
