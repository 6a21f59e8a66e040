#!/usr/bin/env python3
"""Compare what the theorems say about the code with output that the code has left in /repo/docs/examples/*.h5.

Evidence for the model (no theorem depends on it), in particular for the defects that the theorems claim:
W2c attributes a value to the previous pixel of its path (C47), and S2 pads masks with zeros also if periodic (C35).
"""

import cmath
import math
import struct
import sys

ROOT = "/repo/docs/examples/"
FAILED = []


class H5:
    """The contiguous datasets of an HDF5 file (superblock version 0)."""

    def __init__(self, path):
        self.b = open(ROOT + path, "rb").read()
        assert self.b[:8] == b"\x89HDF\r\n\x1a\n" and self.b[8] == 0
        self.ds = {}
        self.group(struct.unpack_from("<Q", self.b, 64)[0], "")

    def messages(self, addr):
        ver, _, n, _, size = struct.unpack_from("<BBHII", self.b, addr)
        assert ver == 1
        blocks, out = [(addr + 16, size)], []
        while blocks:
            p, size = blocks.pop(0)
            end = p + size
            while p + 8 <= end and len(out) < n:
                t, length = struct.unpack_from("<HH", self.b, p)
                d = self.b[p + 8 : p + 8 + length]
                out.append((t, d))
                if t == 0x10:
                    blocks.append(struct.unpack_from("<QQ", d))
                p += 8 + length
        return out

    def group(self, addr, name):
        messages = self.messages(addr)
        table = [d for t, d in messages if t == 0x11]
        if not table:
            self.ds[name] = messages
            return
        tree, heap = struct.unpack_from("<QQ", table[0])
        self.tree(tree, struct.unpack_from("<Q", self.b, heap + 24)[0], name)

    def tree(self, addr, heap, name):
        level, n = struct.unpack_from("<BH", self.b, addr + 5)
        for i in range(n):
            child = struct.unpack_from("<Q", self.b, addr + 32 + 16 * i)[0]
            if level > 0:
                self.tree(child, heap, name)
                continue
            for k in range(struct.unpack_from("<H", self.b, child + 6)[0]):
                o, header = struct.unpack_from("<QQ", self.b, child + 8 + 40 * k)
                end = self.b.index(b"\0", heap + o)
                self.group(header, name + "/" + self.b[heap + o : end].decode())

    def __getitem__(self, name):
        for t, d in self.ds["/" + name]:
            if t == 1:
                shape = struct.unpack_from("<%dQ" % d[1], d, 8 if d[0] == 1 else 4)
            elif t == 3:
                real, size = d[0] & 15 == 1, struct.unpack_from("<I", d, 4)[0]
            elif t == 8:
                assert d[0] == 3 and d[1] == 1
                addr = struct.unpack_from("<Q", d, 2)[0]
        code = {8: "d", 4: "f"}[size] if real else {8: "q", 4: "i", 2: "h", 1: "b"}[size]
        return list(struct.unpack_from("<%d%s" % (math.prod(shape), code), self.b, addr))


def check(what, ok):
    print("same     " if ok else "DIFFERENT", what)
    FAILED.extend([] if ok else [what])


def close(a, b, tol=1e-9):
    return len(a) == len(b) and all(abs(x - y) <= tol * max(1, abs(y)) for x, y in zip(a, b))


def bresenham(stamp):
    s = [(v > 0) - (v < 0) for v in stamp]
    a = [2 * abs(v) for v in stamp]
    j = 0 if a[0] >= a[1] else 1
    o, x, out = 1 - j, [0, 0], []
    d = a[o] - a[j] // 2
    while True:
        out.append(tuple(x))
        if x[j] == stamp[j]:
            return out
        if d >= 0:
            x[o] += s[o]
            d -= a[j]
        x[j] += s[j]
        d += a[o]


N, R = 500, 50
WINDOW = [(i, j) for i in range(-R, R + 1) for j in range(-R, R + 1)]
STAMPS = [d for d in WINDOW if R in (abs(d[0]), abs(d[1]))]


def W2c():
    h = H5("W2c.h5")
    img, mask, labels, centers = h["I"], h["W"], h["labels"], h["centers"]
    sources = [(k // N, k % N, centers[k]) for k in range(N * N) if centers[k] and labels[k] == centers[k]]
    first, norm = {}, {}
    for stamp in STAMPS:
        path = bresenham(stamp)
        # C47_code: the value at the k-th pixel counts for the pixel before it
        for here, before in zip(path[1:], path):
            for i, j, _ in sources:
                k = (i + here[0]) % N * N + (j + here[1]) % N
                if not mask[k]:
                    norm[before] = norm.get(before, 0) + 1
                    first[before] = first.get(before, 0) + img[k]
    check("W2c.h5: W2c", close([first.get(d, 0) / norm.get(d, 1) for d in WINDOW], h["WIc"]))


def S2(f, g, mask, d, periodic_mask):
    first = norm = 0
    for i in range(N):
        for j in range(N):
            if mask and mask[i * N + j]:
                continue
            y, x = i + d[0], j + d[1]
            k = y % N * N + x % N
            if mask and (periodic_mask or (0 <= y < N and 0 <= x < N)) and mask[k]:
                continue
            norm += 1
            first += f[i * N + j] * g[k]
    return first / norm


SOME = [(-50, -50), (-50, 0), (20, 35), (0, 0), (50, 50), (-17, 31)]


def at(a, d):
    return a[(d[0] + R) * (2 * R + 1) + d[1] + R]


def pairs():
    h = H5("S2_mask.h5")
    img, err, mask = h["I"], h["Ierr"], h["mask"]
    check("S2_mask.h5: S2", close([S2(img, img, None, d, True) for d in SOME], [at(h["S2"], d) for d in SOME]))
    recorded = [at(h["S2mask"], d) for d in SOME]
    check("S2_mask.h5: S2 with masks, padded with zeros", close([S2(err, err, mask, d, False) for d in SOME], recorded))
    check("S2_mask.h5: not S2 with periodic masks", not close([S2(err, err, mask, d, True) for d in SOME], recorded))
    h = H5("W2.h5")
    img, w = h["I"], h["W"]

    def W2(d):
        first = norm = 0
        for k in range(N * N):
            if w[k]:
                y, x = k // N + d[0], k % N + d[1]
                q = y % N * N + x % N
                if not (w[q] and 0 <= y < N and 0 <= x < N):
                    norm += w[k]
                    first += w[k] * img[q]
        return first / max(norm, 1)

    check("W2.h5: W2 with a mask, padded with zeros", close([W2(d) for d in SOME], [at(h["WI"], d) for d in SOME]))


def lineal():
    h = H5("L.h5")
    img = h["I"]
    first, norm = {}, {}
    some = [s for s in STAMPS if s[0] % 25 == 0 and s[1] % 25 == 0]
    # pixels that are on the paths to these stamp points only
    for stamp in STAMPS:
        for d in bresenham(stamp):
            norm.setdefault(d, set()).add(stamp)
    for stamp in some:
        alive = [k for k in range(N * N) if img[k]]
        for d in bresenham(stamp):
            alive = [k for k in alive if img[(k // N + d[0]) % N * N + (k % N + d[1]) % N]]
            first[d] = first.get(d, 0) + len(alive)
    only = [d for d in first if norm[d] <= set(some)]
    check("L.h5: L", close([first[d] / (len(norm[d]) * N * N) for d in only], [at(h["L"], d) for d in only]) and len(only) > 8)


def heights():
    h = H5("heightheight.h5")
    for y, hh in [(h["y1"], h["hh1"]), (h["y2"], h["hh2"])]:
        n = len(y)
        got = [math.sqrt(sum((y[(i + d) % n] - y[i]) ** 2 for i in range(n)) / n) for d in range(-99, 101)]
        check("heightheight.h5: heightheight", close(got, hh))
    check("heightheight.h5: distance", close([d * 2 * math.pi / n for d in range(-99, 101)], h["dx"]))


def components(img, periodic):
    label, n = [0] * (N * N), 0
    for k in range(N * N):
        if img[k] and not label[k]:
            n += 1
            label[k], todo = n, [k]
            while todo:
                i, j = divmod(todo.pop(), N)
                for y, x in [(i - 1, j), (i + 1, j), (i, j - 1), (i, j + 1)]:
                    if periodic or (0 <= y < N and 0 <= x < N):
                        q = y % N * N + x % N
                        if img[q] and not label[q]:
                            label[q] = n
                            todo.append(q)
    return label


def clusters():
    h = H5("clusters_centers.h5")
    for periodic, labels, centers in [
        (False, h["labels"], h["centers"]),
        (True, h["labels_periodic"], h["centers_periodic"]),
    ]:
        check("clusters_centers.h5: clusters", components(h["I"], periodic) == labels)
        pos = {}
        for k, l in enumerate(labels):
            pos.setdefault(l, []).append(divmod(k, N))
        got = []
        for l in sorted(pos):
            for a in (0, 1):
                x = [p[a] for p in pos[l]]
                if periodic:
                    z = sum(cmath.exp(2j * math.pi * v / N) for v in x) / len(x)
                    got.append((math.atan2(-z.imag, -z.real) + math.pi) * N / (2 * math.pi))
                else:
                    got.append(sum(x) / len(x))
        # C51: up to a multiple of the shape if the center is at the boundary
        same = all(min(abs(a - b), N - abs(a - b)) < 1e-9 for a, b in zip(got, centers))
        check("clusters_centers.h5: labels_centers", same and len(got) == len(centers))


W2c()
pairs()
lineal()
heights()
clusters()
sys.exit(len(FAILED))
